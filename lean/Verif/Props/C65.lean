import Verif.Comm.LayerColl
import Verif.Comm.LayerReq
import Verif.Comm.LayerVec
import Verif.Props.C52

/-!
# C65: `MPILayer` — collective operations deliver everybody's data in order of ranks, requests are completed exactly once
-/

namespace LGD.C65
open LGD.Layer LGD.Mpi LGD.C52

variable {α : Type}

/-! ## Collective operations -/

/-- everybody's contribution in the order of the ranks -/
def Joined (N : Nat) (part : Nat → List α) : List α := (List.range N).flatMap part

/-- all ranks pass the same lengths, one per rank, and rank `s` has at least `lengths[s]` elements -/
structure Agree (N : Nat) (src : Nat → List α) (lengths : Nat → List Nat) (len : List Nat) : Prop where
  pos : 0 < N
  same : ∀ r, r < N → lengths r = len
  size : len.length = N
  avail : ∀ s, s < N → len.getD s 0 ≤ (src s).length

theorem gatherv_full {N : Nat} {src : Nat → List α} {len : List Nat} (num : Nat → Option Nat) (hs : len.length = N)
    (hn : ∀ s, s < N → num s = some (len.getD s 0)) (ha : ∀ s, s < N → len.getD s 0 ≤ (src s).length) (target : List α) :
    mpiGatherv src num len ((List.range N).map fun s => (len.take s).sum) N 0 target =
      if len.sum ≤ target.length then some (Joined N (fun s => (src s).take (len.getD s 0)) ++ target.drop len.sum) else none := by
  have := mpiGatherv_eq src num len ((List.range N).map fun s => (len.take s).sum) (fun s => len.getD s 0) (fun s => (len.take s).sum) N 0 [] target
    (fun i _ hi => by
      have hi : i < N := by omega
      refine ⟨hn i hi, ha i hi, ?_, by simp [hi], ?_⟩
      · rw [List.getD_eq_getElem?_getD, List.getElem?_eq_getElem (by omega)]; rfl
      · rw [sum_take_add_one _ _ (by omega), List.getD_eq_getElem?_getD, List.getElem?_eq_getElem (by omega : i < len.length)]; rfl) (by simp)
  rw [List.nil_append, List.nil_append, ← List.range_eq_range', sum_range_getD, List.take_of_length_le (by omega)] at this
  exact this

/-- **C65, variable sizes.** `allGatherV` into a vector: every rank gets the contributions of all ranks in their order, and the rest of the vector stays as it was.
Vectors which are too small (and empty ones) are undefined behaviour, as the code doesn't check. -/
theorem allGatherV_to {N : Nat} {src : Nat → List α} {lengths : Nat → List Nat} {len : List Nat} (h : Agree N src lengths len) {me : Nat} (hme : me < N)
    (target : List α) :
    (allGatherVTo N src lengths me target).isSome ↔ target ≠ [] ∧ len.sum ≤ target.length := by
  unfold allGatherVTo
  rw [h.same me hme, displacements_eq N len h.pos (by have := h.size; omega), Option.bind_some]
  by_cases ht : target = []
  · simp [ht]
  · rw [if_neg ht, gatherv_full (src := src) _ h.size (fun s hs => by
      rw [h.same s hs, List.getD_eq_getElem?_getD, List.getElem?_eq_getElem (by rw [h.size]; exact hs)]; rfl) h.avail]
    by_cases hc : len.sum ≤ target.length <;> simp [hc, ht]

theorem allGatherV_to_eq {N : Nat} {src : Nat → List α} {lengths : Nat → List Nat} {len : List Nat} (h : Agree N src lengths len) {me : Nat} (hme : me < N)
    {target : List α} (ht : target ≠ []) (hl : len.sum ≤ target.length) :
    allGatherVTo N src lengths me target = some (Joined N (fun s => (src s).take (len.getD s 0)) ++ target.drop len.sum) := by
  unfold allGatherVTo
  rw [h.same me hme, displacements_eq N len h.pos (by have := h.size; omega), Option.bind_some, if_neg ht,
    gatherv_full (src := src) _ h.size (fun s hs => by
      rw [h.same s hs, List.getD_eq_getElem?_getD, List.getElem?_eq_getElem (by rw [h.size]; exact hs)]; rfl) h.avail, if_pos hl]

/-- **C65, variable sizes.** `allGatherV` returns exactly the contributions of all ranks, the same vector on all ranks, if there is at least one element. -/
theorem allGatherV_eq {N : Nat} {src : Nat → List α} {lengths : Nat → List Nat} {len : List Nat} (h : Agree N src lengths len) {me : Nat} (hme : me < N)
    (dflt : α) (hpos : 0 < len.sum) : allGatherV N dflt src lengths me = some (Joined N fun s => (src s).take (len.getD s 0)) := by
  unfold allGatherV
  rw [allGatherV_to_eq h hme (by rw [h.same me hme]; intro e; have := congrArg List.length e; simp at this; omega) (by rw [h.same me hme]; simp)]
  rw [h.same me hme]
  simp

/-- … and is undefined if nobody contributes anything: it takes the address of the first element of an empty vector. -/
theorem allGatherV_nothing {N : Nat} {src : Nat → List α} {lengths : Nat → List Nat} {len : List Nat} (h : Agree N src lengths len) {me : Nat} (hme : me < N)
    (dflt : α) (hz : len.sum = 0) : allGatherV N dflt src lengths me = none := by
  have := allGatherV_to h hme (List.replicate (lengths me).sum dflt)
  unfold allGatherV
  rw [← Option.not_isSome_iff_eq_none, this]
  rintro ⟨h1, -⟩
  exact h1 (by rw [h.same me hme, hz]; rfl)

theorem gather1 (N : Nat) (src : Nat → α) (dflt : α) :
    mpiGather N (fun s => [src s]) 1 (List.replicate N dflt) = some ((List.range N).map src) := by
  have := mpiGatherv_eq (fun s => [src s]) (fun _ => some 1) (List.replicate N 1) ((List.range N).map fun s => s * 1) (fun _ => 1) (fun s => s) N 0 []
    (List.replicate N dflt) (fun i _ hi => by
      have hi : i < N := by omega
      simp [hi]) rfl
  rw [List.nil_append, List.nil_append] at this
  unfold mpiGather
  rw [this, ← List.range_eq_range']
  have : ∀ l : List Nat, l.flatMap (fun i => [src i]) = l.map src := by
    intro l
    induction l with
    | nil => rfl
    | cons a l ih => rw [List.flatMap_cons, ih]; rfl
  simp [this]

/-- **C65, one element each.** `allGather` returns the elements of all ranks in their order, on all ranks. -/
theorem allGather_eq {N : Nat} (hN : 0 < N) (src : Nat → α) (dflt : α) : allGather N dflt src = some ((List.range N).map src) := by
  rw [allGather, if_neg (by omega), gather1]

/-- **C65, one element each.** `gather` returns them on the root only. -/
theorem gather_eq {N : Nat} (hN : 0 < N) (src : Nat → α) (dflt : α) (root me : Nat) :
    gather N dflt src root me = some (if me = root then (List.range N).map src else []) := by
  unfold gather
  rw [if_neg (by omega)]
  split
  · rw [gather1]
  · rfl

/-- **C65, variable sizes.** `gatherV` of vectors: on the root the contributions of all ranks are stored in their order; `lengths` and `target` of the other ranks may be anything,
and stay as they were. -/
theorem gatherV_eq {N : Nat} (hN : 0 < N) (src : Nat → List α) {len : Nat → List Nat} {root : Nat} (hlen : len root = (List.range N).map fun s => (src s).length)
    (me : Nat) {target : List α} (ht : me = root → (len root).sum ≤ target.length) :
    gatherV N src (len me) root me target = some (if me = root then Joined N src ++ target.drop (len root).sum else target) := by
  unfold gatherV
  by_cases e : me = root
  · subst e
    rw [if_pos rfl, if_pos rfl, displacements_eq N _ hN (by rw [hlen]; simp), Option.bind_some]
    have hne : len me ≠ [] := by
      rw [hlen]
      intro e
      have := congrArg List.length e
      simp at this
      omega
    rw [if_neg hne, gatherv_full (src := src) _ (by rw [hlen]; simp) (fun s hs => by rw [hlen]; simp [List.getD_eq_getElem?_getD, hs])
      (fun s hs => by rw [hlen]; simp [List.getD_eq_getElem?_getD, hs]), if_pos (ht rfl)]
    congr 2
    unfold Joined
    rw [hlen]
    refine List.flatMap_congr fun s hs => ?_
    rw [List.mem_range] at hs
    simp [List.getD_eq_getElem?_getD, hs]
  · rw [if_neg e, if_neg e]

/-- `gatherV` of pointers yields the same on the root … -/
theorem gatherVPtr_root {N : Nat} (hN : 0 < N) (src : Nat → List α) (num : Nat → Nat) (hnum : ∀ s, s < N → num s ≤ (src s).length) {root : Nat}
    {target : List α} (ht : ((List.range N).map num).sum ≤ target.length) :
    gatherVPtr N src num ((List.range N).map num) root root target =
      some (Joined N (fun s => (src s).take (num s)) ++ target.drop ((List.range N).map num).sum) := by
  unfold gatherVPtr
  rw [if_pos rfl, displacements_eq N _ hN (by simp), Option.bind_some, if_neg (by
    intro e
    have := congrArg List.length e
    simp at this
    omega), gatherv_full (src := src) _ (by simp) (fun s hs => by simp [List.getD_eq_getElem?_getD, hs])
      (fun s hs => by simp [List.getD_eq_getElem?_getD, hs, hnum s hs]), if_pos ht]
  congr 2
  refine List.flatMap_congr fun s hs => ?_
  rw [List.mem_range] at hs
  simp [List.getD_eq_getElem?_getD, hs]

/-- … but is undefined on other ranks which pass no lengths, although the documentation says that these are "only relevant on root". -/
theorem gatherVPtr_no_lengths (N : Nat) (src : Nat → List α) (num : Nat → Nat) {root me : Nat} (hme : me ≠ root) (target : List α) :
    gatherVPtr N src num [] root me target = none := by
  rw [gatherVPtr, if_neg hme, if_pos rfl]

theorem broadcast_eq (src : Nat → α) (root me : Nat) : broadcast src root me = some [src root] := by
  simp [broadcast, mpiBcast, rd, put]

theorem bcast_full (v b : List α) (h : b.length = v.length) : mpiBcast v v.length b = some v := by
  simp [mpiBcast, rd, put, h, List.drop_of_length_le]

/-- **C65, broadcasts.** `broadcastVector` returns the root's vector on all ranks, whatever the others pass. -/
theorem broadcastVector_eq (dflt : α) (src : Nat → List α) (root me : Nat) : broadcastVector dflt src root me = some (src root) := by
  unfold broadcastVector
  rw [broadcast_eq]
  simp only [Option.bind_some, List.getElem?_cons_zero]
  by_cases h : (src root).length = 0
  · rw [if_pos h, h, List.length_eq_zero_iff.1 h]; rfl
  · rw [if_neg h, bcast_full]
    split
    · rename_i e; rw [e]
    · simp

/-- … also if it works in place. -/
theorem broadcastVectorTo_eq (dflt : α) (buf : Nat → List α) (root me : Nat) : broadcastVectorTo dflt buf root me = some (buf root) := by
  unfold broadcastVectorTo
  rw [broadcast_eq]
  simp only [Option.bind_some, List.getElem?_cons_zero]
  have hr : resize dflt (buf root) (buf root).length = buf root := by simp [resize]
  have hl : (resize dflt (buf me) (buf root).length).length = (buf root).length := by
    simp [resize]
    omega
  rw [hr]
  by_cases h : 0 < (buf root).length
  · rw [if_pos h, bcast_full _ _ hl]
  · rw [if_neg h]
    have h0 : (buf root).length = 0 := by omega
    rw [h0] at hl ⊢
    rw [List.length_eq_zero_iff.1 hl, List.length_eq_zero_iff.1 h0]

/-! ## Requests -/

/-- **C65, requests.** Every history of constructions, sends, receives, waits, tests and destructions works: MPI never gets to see a request it doesn't know (any more). Every request
is freed at most once, and those which were not freed belong to objects which still exist. -/
theorem history_ok {ops : List Op} (hv : Valid Abs.init ops) :
    ∃ w, run World.empty ops = .ok w ∧ w.frees.Nodup ∧ (∀ q ∈ w.frees, ∃ o t, Posted w o t q) ∧
      ∀ o t q, Posted w o t q → ¬ Freed w q → (Abs.init.after ops).alive o = true := by
  obtain ⟨w, h1, h2⟩ := run_sim ops sim_init hv
  refine ⟨w, h1, h2.inv.frees, fun q hq => ?_, fun o t q hp hf => ?_⟩
  · rw [mem_frees, h2.inv.freed] at hq
    exact h2.inv.all q hq.1
  · obtain ⟨a, b⟩ := h2.inv.posted o t q hp
    have : q ∈ w.live := by
      by_contra hq
      exact hf ((h2.inv.freed q).2 ⟨a, hq⟩)
    obtain ⟨L, hL, -⟩ := b this
    rw [← h2.alive o, hL]
    rfl

/-- after a valid history which led to `w` -/
def After (ops : List Op) (w : World) : Prop := Valid Abs.init ops ∧ run World.empty ops = .ok w

theorem After.sim {ops : List Op} {w : World} (h : After ops w) : Sim w (Abs.init.after ops) := by
  obtain ⟨w', h1, h2⟩ := run_sim ops sim_init h.1
  rw [h.2, Except.ok.injEq] at h1
  exact h1 ▸ h2

/-- whatever was posted under a key is held there until it's freed -/
theorem held {w : World} (hi : Inv w) {o : Nat} {L : Obj} (hL : w.objs o = some L) (t : Int) (q : Nat) :
    some q ∈ L.vec t ↔ Posted w o t q ∧ ¬ Freed w q := by
  constructor
  · intro h
    refine ⟨hi.owner _ _ _ _ hL h, fun hf => ((hi.freed q).1 hf).2 (hi.home _ _ _ _ hL h)⟩
  · rintro ⟨hp, hf⟩
    obtain ⟨a, b⟩ := hi.posted o t q hp
    have : q ∈ w.live := by
      by_contra hq
      exact hf ((hi.freed q).2 ⟨a, hq⟩)
    obtain ⟨L', hL', h⟩ := b this
    rw [hL, Option.some.injEq] at hL'
    exact hL' ▸ h

/-- **C65, requests.** `wait(key)` completes exactly the operations which were filed under the key by this object, and returns how many were filed since the last wait. -/
theorem wait_completes {ops : List Op} {w : World} (h : After ops w) {o : Nat} (ho : (Abs.init.after ops).alive o = true) (key : Int) :
    ∃ w', wait w o key = .ok (w', (Abs.init.after ops).cnt o key) ∧ (∀ o t q, Posted w' o t q ↔ Posted w o t q) ∧
      ∀ q, Freed w' q ↔ Freed w q ∨ Posted w o key q := by
  obtain ⟨L, hL⟩ := h.sim.get ho
  have hi := h.sim.inv
  have hg := gone_cleared w o L key []
  refine ⟨_, by rw [wait_spec hi hL, h.sim.cnt o L key hL], hg.posts, fun q => ?_⟩
  rw [hg.freed hi (inv_cleared hi hL key [] (by simp)) (fun q hq => hi.live_lt q (hi.home _ _ _ _ hL hq)), held hi hL]
  constructor
  · rintro (a | ⟨a, -⟩)
    · exact .inl a
    · exact .inr a
  · rintro (a | a)
    · exact .inl a
    · by_cases b : Freed w q
      · exact .inl b
      · exact .inr ⟨a, b⟩

/-- **C65, requests.** `waitAll` completes exactly the operations which were issued by this object … -/
theorem waitAll_completes {ops : List Op} {w : World} (h : After ops w) {o : Nat} (ho : (Abs.init.after ops).alive o = true) :
    ∃ w', waitAll w o = .ok w' ∧ (∀ o t q, Posted w' o t q ↔ Posted w o t q) ∧ ∀ q, Freed w' q ↔ Freed w q ∨ ∃ t, Posted w o t q := by
  obtain ⟨L, hL⟩ := h.sim.get ho
  have hi := h.sim.inv
  obtain ⟨w', h1, h2, -, -, hg⟩ := waitAll_spec hi hL
  refine ⟨w', h1, hg.posts, fun q => ?_⟩
  rw [hg.freed hi h2 (fun q ⟨k, hq⟩ => hi.live_lt q (hi.home _ _ _ _ hL hq))]
  constructor
  · rintro (a | ⟨k, a⟩)
    · exact .inl a
    · exact .inr ⟨k, hi.owner _ _ _ _ hL a⟩
  · rintro (a | ⟨k, a⟩)
    · exact .inl a
    · by_cases b : Freed w q
      · exact .inl b
      · exact .inr ⟨k, (held hi hL k q).2 ⟨a, b⟩⟩

/-- **C65, requests.** … and so does the destructor. -/
theorem destroy_completes {ops : List Op} {w : World} (h : After ops w) {o : Nat} (ho : (Abs.init.after ops).alive o = true) :
    ∃ w', destroy w o = .ok w' ∧ ∀ q, Freed w' q ↔ Freed w q ∨ ∃ t, Posted w o t q := by
  obtain ⟨L, hL⟩ := h.sim.get ho
  have hi := h.sim.inv
  obtain ⟨w', h1, h2, -, -, hg⟩ := destroy_spec hi hL
  refine ⟨w', h1, fun q => ?_⟩
  rw [hg.freed hi h2 (fun q ⟨k, hq⟩ => hi.live_lt q (hi.home _ _ _ _ hL hq))]
  constructor
  · rintro (a | ⟨k, a⟩)
    · exact .inl a
    · exact .inr ⟨k, hi.owner _ _ _ _ hL a⟩
  · rintro (a | ⟨k, a⟩)
    · exact .inl a
    · by_cases b : Freed w q
      · exact .inl b
      · exact .inr ⟨k, (held hi hL k q).2 ⟨a, b⟩⟩

/-- **C65, requests.** `test(key)` completes all pending operations with the key if all of them have finished, and otherwise none. -/
theorem test_completes {ops : List Op} {w : World} (h : After ops w) {o : Nat} (ho : (Abs.init.after ops).alive o = true) (key : Int) (finished : Nat → Bool) :
    ∃ w', test w o key finished = .ok w' ∧
      ∀ q, Freed w' q ↔ Freed w q ∨ (Posted w o key q ∧ ∀ q', Posted w o key q' → ¬ Freed w q' → finished q' = true) := by
  obtain ⟨L, hL⟩ := h.sim.get ho
  have hi := h.sim.inv
  refine ⟨_, test_spec hi hL key finished, fun q => ?_⟩
  have hf : (∀ q', Posted w o key q' → ¬ Freed w q' → finished q' = true) ↔ ∀ q', some q' ∈ L.vec key → finished q' = true :=
    ⟨fun a q' hq => a q' ((held hi hL key q').1 hq).1 ((held hi hL key q').1 hq).2, fun a q' h1 h2 => a q' ((held hi hL key q').2 ⟨h1, h2⟩)⟩
  rw [hf]
  split
  · rename_i hc
    rw [(gone_cleared w o L key _).freed hi (inv_cleared hi hL key _ (by simp)) (fun q hq => hi.live_lt q (hi.home _ _ _ _ hL hq)), held hi hL]
    constructor
    · rintro (a | ⟨a, -⟩)
      · exact .inl a
      · exact .inr ⟨a, hc⟩
    · rintro (a | ⟨a, -⟩)
      · exact .inl a
      · by_cases b : Freed w q
        · exact .inl b
        · exact .inr ⟨a, b⟩
  · rename_i hc
    constructor
    · intro a; exact .inl a
    · rintro (a | ⟨-, a⟩)
      · exact a
      · exact absurd a hc

/-! ### What doesn't work -/

/-- **C65, copies.** A new layer can be copied: the copy has the same tag. -/
theorem copy_new {w : World} {o p : Nat} (hop : o ≠ p) (ho : w.objs o = none) (hp : w.objs p = none) (tag : Int) :
    ∃ w1 w2, Layer.construct w p tag = .ok w1 ∧ copy w1 o p = .ok w2 ∧ w2.objs o = some ⟨tag, [], fun _ => []⟩ ∧ w2.objs p = w2.objs o := by
  refine ⟨w.set p ⟨tag, [], fun _ => []⟩, (w.set p ⟨tag, [], fun _ => []⟩).set o ⟨tag, [], fun _ => []⟩, by rw [Layer.construct, if_pos hp], ?_, by simp [World.set], ?_⟩
  · simp [copy, World.obj, World.set, Except.bind, Function.update_of_ne hop, ho]
  · simp [World.set, Function.update_of_ne hop.symm]

/-- **C65, violated.** A layer which has no pending requests can't be copied any more after any use of `wait` (let alone of `send`): the constructor throws
an exception which complains about pending requests. -/
theorem copy_after_wait_throws {w w' : World} {o p : Nat} {key : Int} {n : Nat} (h : wait w p key = .ok (w', n)) : copy w' o p = .error .logic := by
  unfold wait World.obj at h
  cases hL : w.objs p with
  | none => simp [hL, Except.bind] at h
  | some L =>
    simp only [hL, Except.bind] at h
    cases hf : w.free (L.vec key) with
    | error e => rw [hf] at h; simp at h
    | ok w1 =>
      rw [hf] at h
      simp only [Except.ok.injEq, Prod.mk.injEq] at h
      obtain ⟨rfl, -⟩ := h
      have : key ∈ (L.put key []).keys := (mem_put_keys L key key []).2 (.inr rfl)
      simp only [copy, World.obj, World.set, Function.update_self, Except.bind]
      rw [if_pos (List.length_pos_of_mem this)]

/-- **C65, violated.** The copy assignment isn't protected like the copy constructor: it duplicates pending requests, and the second object to wait for them breaks MPI. -/
theorem assign_double_wait {ops : List Op} {w : World} (h : After ops w) {o p : Nat} (hop : o ≠ p) (ho : (Abs.init.after ops).alive o = true)
    (hp : (Abs.init.after ops).alive p = true) {key : Int} {q : Nat} (hq : Posted w p key q) (hf : ¬ Freed w q) :
    ∃ w1 w2 n, assign w o p = .ok w1 ∧ wait w1 p key = .ok (w2, n) ∧ wait w2 o key = .error .mpi := by
  obtain ⟨L, hL⟩ := h.sim.get hp
  obtain ⟨L₀, hL₀⟩ := h.sim.get ho
  have hi := h.sim.inv
  have hheld := (held hi hL key q).2 ⟨hq, hf⟩
  have e1 : (w.set o L).free (L.vec key) =
      .ok { w.set o L with live := w.live.filter fun q => q ∉ (L.vec key).filterMap id, log := w.log ++ ((L.vec key).filterMap id).map Ev.free } := by
    unfold World.free
    simp only
    rw [if_pos ⟨hi.once p L key hL, fun q hq => hi.home p L key q hL (mem_ids.1 hq)⟩]
    rfl
  refine ⟨w.set o L, World.set { w.set o L with live := w.live.filter fun q => q ∉ (L.vec key).filterMap id, log := w.log ++ ((L.vec key).filterMap id).map Ev.free } p (L.put key []),
    (L.vec key).length, by simp [assign, World.obj, hL, hL₀, Except.bind], ?_, ?_⟩
  · have hLp : (w.set o L).objs p = some L := by simp [World.set, Function.update_of_ne hop.symm, hL]
    simp only [wait, World.obj, hLp, Except.bind, e1]
  · have hLo : (World.set { w.set o L with live := w.live.filter fun q => q ∉ (L.vec key).filterMap id, log := w.log ++ ((L.vec key).filterMap id).map Ev.free } p (L.put key [])).objs o = some L := by
      simp [World.set, Function.update_of_ne hop]
    simp only [wait, World.obj, hLo, Except.bind]
    unfold World.free
    simp only
    rw [if_neg]
    rintro ⟨-, h2⟩
    have := h2 q (mem_ids.2 hheld)
    simp only [World.set, List.mem_filter, decide_eq_true_eq] at this
    exact this.2 (mem_ids.2 hheld)

/-- nobody knows request `q` any more -/
def Lost (w : World) (q : Nat) : Prop := q ∈ w.live ∧ q < w.next ∧ ∀ o L t, w.objs o = some L → some q ∉ L.vec t

theorem lost_set {w : World} {q : Nat} (h : Lost w q) (o : Nat) {L : Obj} (hL : ∀ t, some q ∉ L.vec t) : Lost (w.set o L) q := by
  refine ⟨h.1, h.2.1, fun o' L' t h' => ?_⟩
  by_cases e : o' = o
  · subst e
    simp only [World.set, Function.update_self, Option.some.injEq] at h'
    exact h' ▸ hL t
  · simp only [World.set, Function.update_of_ne e] at h'
    exact h.2.2 _ _ _ h'

theorem lost_free {w w' : World} {q : Nat} (h : Lost w q) {hs : List Handle} (hq : some q ∉ hs) (e : w.free hs = .ok w') : Lost w' q := by
  unfold World.free at e
  simp only at e
  split at e
  · simp only [Except.ok.injEq] at e
    subst e
    refine ⟨?_, h.2.1, h.2.2⟩
    simp only [List.mem_filter, decide_eq_true_eq]
    exact ⟨h.1, fun hm => hq (mem_ids.1 hm)⟩
  · simp at e

theorem lost_wait {w : World} {q : Nat} (h : Lost w q) {o : Nat} {key : Int} {r : World × Nat} (e : wait w o key = .ok r) : Lost r.1 q := by
  unfold wait World.obj at e
  cases hL : w.objs o with
  | none => simp [hL, Except.bind] at e
  | some L =>
    simp only [hL, Except.bind] at e
    cases hf : w.free (L.vec key) with
    | error => simp [hf] at e
    | ok w1 =>
      simp only [hf, Except.ok.injEq] at e
      subst e
      refine lost_set (lost_free h (h.2.2 _ _ _ hL) hf) o fun t => ?_
      by_cases et : t = key
      · subst et; simp
      · rw [put_vec, Function.update_of_ne et]; exact h.2.2 _ _ _ hL

theorem lost_waitKeys {q o : Nat} : ∀ (ks : List Int) {w w' : World}, Lost w q → waitKeys o ks w = .ok w' → Lost w' q
  | [], w, w', h, e => by
    simp only [waitKeys, Except.ok.injEq] at e
    exact e ▸ h
  | k :: ks, w, w', h, e => by
    simp only [waitKeys, Except.bind] at e
    cases hw : wait w o k with
    | error => simp [hw] at e
    | ok r =>
      simp only [hw] at e
      exact lost_waitKeys ks (lost_wait h hw) e

theorem lost_waitAll {w w' : World} {q o : Nat} (h : Lost w q) (e : waitAll w o = .ok w') : Lost w' q := by
  unfold waitAll World.obj at e
  cases hL : w.objs o with
  | none => simp [hL, Except.bind] at e
  | some L =>
    simp only [hL, Except.bind] at e
    exact lost_waitKeys _ h e

theorem lost_post {w w' : World} {q o : Nat} {a b : Int} (h : Lost w q) (e : post w o a b = .ok w') : Lost w' q := by
  unfold post World.obj at e
  cases hL : w.objs o with
  | none => simp [hL, Except.bind] at e
  | some L =>
    simp only [hL, Except.bind, Except.ok.injEq] at e
    subst e
    obtain ⟨h1, h2, h3⟩ := lost_set (L := L.put b (L.vec b ++ [some w.next])) h o fun t => by
      have hn : q ≠ w.next := Nat.ne_of_lt h.2.1
      by_cases et : t = b
      · subst et; simp [h.2.2 _ _ t hL, hn]
      · rw [put_vec, Function.update_of_ne et]; exact h.2.2 _ _ _ hL
    exact ⟨List.mem_append_left _ h1, Nat.lt_succ_of_lt h2, h3⟩

theorem lost_step {w w' : World} {q : Nat} {op : Op} (h : Lost w q) (e : step w op = .ok w') : Lost w' q := by
  cases op with
  | construct o tag =>
    simp only [step, Layer.construct] at e
    split at e
    · simp only [Except.ok.injEq] at e
      exact e ▸ lost_set h o (by simp)
    · simp at e
  | send o t => exact lost_post h e
  | sendVec o t n =>
    simp only [step, sendVec, World.obj] at e
    cases hL : w.objs o with
    | none => simp [hL, Except.bind] at e
    | some L =>
      simp only [hL, Except.bind] at e
      split at e
      · simp at e
      · exact lost_post h e
  | wait o t =>
    simp only [step, Except.bind] at e
    cases hw : wait w o t with
    | error => simp [hw] at e
    | ok r =>
      simp only [hw, Except.ok.injEq] at e
      exact e ▸ lost_wait h hw
  | waitAll o => exact lost_waitAll h e
  | test o t f =>
    simp only [step, test, World.obj] at e
    cases hL : w.objs o with
    | none => simp [hL, Except.bind] at e
    | some L =>
      simp only [hL, Except.bind] at e
      split at e
      · simp at e
      · split at e
        · cases hf : w.free (L.vec t) with
          | error => simp [hf] at e
          | ok w1 =>
            simp only [hf, Except.ok.injEq] at e
            subst e
            refine lost_set (lost_free h (h.2.2 _ _ _ hL) hf) o fun t' => ?_
            by_cases et : t' = t
            · subst et; simp
            · rw [put_vec, Function.update_of_ne et]; exact h.2.2 _ _ _ hL
        · simp only [Except.ok.injEq] at e
          subst e
          exact lost_set h o fun t' => by rw [touch_vec]; exact h.2.2 _ _ t' hL
  | destroy o =>
    simp only [step, destroy, Except.bind] at e
    cases hw : waitAll w o with
    | error => simp [hw] at e
    | ok w1 =>
      simp only [hw, Except.ok.injEq] at e
      subst e
      obtain ⟨h1, h2, h3⟩ := lost_waitAll h hw
      refine ⟨h1, h2, fun o' L t h' => ?_⟩
      by_cases eo : o' = o
      · subst eo; simp at h'
      · simp only [Function.update_of_ne eo] at h'
        exact h3 _ _ _ h'

theorem lost_run {q : Nat} : ∀ (ops : List Op) {w w' : World}, Lost w q → run w ops = .ok w' → Lost w' q
  | [], w, w', h, e => by
    simp only [run, Except.ok.injEq] at e
    exact e ▸ h
  | op :: ops, w, w', h, e => by
    simp only [run, Except.bind] at e
    cases hw : step w op with
    | error => simp [hw] at e
    | ok r =>
      simp only [hw] at e
      exact lost_run ops (lost_step h hw) e

/-- **C65, violated.** … and the requests of the object which is assigned to are lost: nothing that the user does thereafter (not even destroying all objects) completes them. -/
theorem assign_leaks {ops : List Op} {w : World} (h : After ops w) {o p : Nat} (hop : o ≠ p) (ho : (Abs.init.after ops).alive o = true)
    (hp : (Abs.init.after ops).alive p = true) {key : Int} {q : Nat} (hq : Posted w o key q) (hf : ¬ Freed w q) :
    ∃ w1, assign w o p = .ok w1 ∧ ∀ more w2, run w1 more = .ok w2 → q ∈ w2.live := by
  obtain ⟨L, hL⟩ := h.sim.get hp
  obtain ⟨L₀, hL₀⟩ := h.sim.get ho
  have hi := h.sim.inv
  have hheld := (held hi hL₀ key q).2 ⟨hq, hf⟩
  have hlive := hi.home _ _ _ _ hL₀ hheld
  refine ⟨w.set o L, by simp [assign, World.obj, hL, hL₀, Except.bind], fun more w2 hr => (lost_run more ?_ hr).1⟩
  refine ⟨hlive, hi.live_lt q hlive, fun o' L' t h' hm => ?_⟩
  by_cases e : o' = o
  · subst e
    simp only [World.set, Function.update_self, Option.some.injEq] at h'
    subst h'
    exact hop (hi.uniq _ _ _ _ _ _ _ hL₀ hL hheld hm).1
  · simp only [World.set, Function.update_of_ne e] at h'
    exact e (hi.uniq _ _ _ _ _ _ _ h' hL₀ hm hheld).1

/-- **C65, violated.** A successful `test` doesn't forget the requests, so `cancel` thereafter breaks MPI. -/
theorem cancel_after_test {ops : List Op} {w : World} (h : After ops w) {o : Nat} (ho : (Abs.init.after ops).alive o = true) {key : Int}
    (hc : 0 < (Abs.init.after ops).cnt o key) :
    ∃ w', test w o key (fun _ => true) = .ok w' ∧ cancel w' o key = .error .mpi := by
  obtain ⟨L, hL⟩ := h.sim.get ho
  refine ⟨_, test_spec h.sim.inv hL key _, ?_⟩
  rw [if_pos (fun _ _ => rfl)]
  simp only [cancel, World.obj, cleared_self, Except.bind]
  rw [if_neg]
  intro hall
  rw [← h.sim.cnt o L key hL] at hc
  obtain ⟨x, hx⟩ := List.exists_mem_of_length_pos hc
  obtain ⟨q, -, e⟩ := hall none (by simp only [put_vec, Function.update_self, List.mem_map]; exact ⟨x, hx, trivial⟩)
  cases e

/-! ## Tags of vectors -/

/-- **C65, vectors.** Vectors sent by `sendVec` arrive in the order in which they are sent and received: the `i`-th vector sent ends up in the `i`-th vector received, for any wait tags on both
sides. Every execution ends, with nothing else changed. -/
theorem vectors_in_order (eager : Ch → Nat → Bool) (tag : Nat) (S R : List (Nat × List Nat)) (hl : S.map (List.length ∘ Prod.snd) = R.map (List.length ∘ Prod.snd))
    (hR : Apart R) (mem : Nat → Nat → α) :
    ∃ f, AlwaysEnds eager (start (pairP tag S R) mem) f ∧ (R.map fun b => b.2.map (f.ranks 1).mem) = (S.map fun b => b.2.map (mem 0)) ∧
      (f.ranks 0).mem = mem 0 ∧ ∀ l, l ∉ R.flatMap Prod.snd → (f.ranks 1).mem l = mem 1 l := by
  obtain ⟨t, t1, t2, t3, t4, t5, t6, t7, t8, t9, t10⟩ := run_vecs (eager := eager) tag (waits (S.map Prod.fst) .done) (waits (R.map Prod.fst) .done) S R
    (s := start (pairP tag S R) mem) (quiet_start _ _) hl hR rfl rfl (by simp [start]) (by simp [start])
  obtain ⟨u, u1, u2, u3, u4, u5, u6⟩ := run_waits (eager := eager) 0 .done _ t2 t3
  obtain ⟨v, v1, v2, v3, v4, v5, v6⟩ := run_waits (eager := eager) 1 .done _ u2 (by rw [u6 1 (by decide)]; exact t4)
  have e1 : u.ranks 1 = t.ranks 1 := u6 1 (by decide)
  have e0 : v.ranks 0 = u.ranks 0 := v6 0 (by decide)
  have r0 : (v.ranks 0).reqs = [] := by
    rw [e0]
    refine List.eq_nil_iff_forall_not_mem.2 fun q hq => ?_
    obtain ⟨a, b⟩ := u5 q hq
    rcases t8 q a with h | h
    · simp [start] at h
    · exact b h
  have r1 : (v.ranks 1).reqs = [] := by
    refine List.eq_nil_iff_forall_not_mem.2 fun q hq => ?_
    obtain ⟨a, b⟩ := v5 q hq
    rw [e1] at a
    rcases t9 q a with h | h
    · simp [start] at h
    · exact b h
  have hfin : Final v := v2.final fun r => by
    by_cases h0 : r = 0
    · subst h0; exact ⟨by rw [e0]; exact u3, r0⟩
    by_cases h1 : r = 1
    · subst h1; exact ⟨v3, r1⟩
    rw [v6 r h1, u6 r h0, t10 r h0 h1]
    simp [start, pairP, h0, h1]
  have m1 : (v.ranks 1).mem = (t.ranks 1).mem := by rw [v4, e1]
  refine ⟨v, alwaysEnds_of_run (wf_start _ _) ((t1.trans u1).trans v1) hfin, ?_, ?_, fun l hl => ?_⟩
  · rw [m1]; exact t6
  · rw [e0, u4]; exact t5
  · rw [m1]; exact t7 l hl

/-- **C65, violated.** So wait tags don't tell vectors apart: if rank 0 sends one vector with tag 1 and another one with tag 2, and rank 1 first receives the one with tag 2, then in every
execution each ends up in the other's place. -/
theorem tags_mixed_up (eager : Ch → Nat → Bool) (mem : Nat → Nat → α) :
    ∃ f, AlwaysEnds eager (start (pairP 0 [(1, [10]), (2, [20])] [(2, [20]), (1, [10])]) mem) f ∧ (f.ranks 1).mem 20 = mem 0 10 ∧ (f.ranks 1).mem 10 = mem 0 20 := by
  obtain ⟨f, h1, h2, -⟩ := vectors_in_order eager 0 [(1, [10]), (2, [20])] [(2, [20]), (1, [10])] rfl (by simp [Apart]) mem
  simp only [List.map_cons, List.map_nil, List.cons.injEq, and_true] at h2
  exact ⟨f, h1, h2.1, h2.2⟩

/-! ## Examples -/

/-- three ranks with 2, 0 and 1 elements -/
def srcEx : Nat → List Int
  | 0 => [1, 2]
  | 2 => [3, 99]
  | _ => []

example : Agree 3 srcEx (fun _ => [2, 0, 1]) [2, 0, 1] :=
  ⟨by decide, fun _ _ => rfl, rfl, fun s hs => by
    have : s = 0 ∨ s = 1 ∨ s = 2 := by omega
    rcases this with rfl | rfl | rfl <;> decide⟩

example : allGatherV 3 0 srcEx (fun _ => [2, 0, 1]) 1 = some [1, 2, 3] := by decide

example : allGatherVTo 3 srcEx (fun _ => [2, 0, 1]) 1 [7, 7, 7, 7] = some [1, 2, 3, 7] := by decide

example : allGatherVTo 3 srcEx (fun _ => [2, 0, 1]) 1 [7, 7] = none := by decide

example : gather 3 0 (fun s => (srcEx s).length) 1 1 = some [2, 0, 2] := by decide

example : gatherV 3 srcEx [2, 0, 2] 1 1 [7, 7, 7, 7, 7] = some [1, 2, 3, 99, 7] := by decide

example : broadcastVector 0 srcEx 2 0 = some [3, 99] := by decide

/-- two objects with the same keys -/
def opsEx : List Op :=
  [.construct 0 5, .construct 1 6, .send 0 3, .send 1 3, .sendVec 0 3 4, .test 1 3 (fun _ => false), .send 0 4, .wait 0 3, .send 1 3]

example : Valid Abs.init opsEx := by simp [opsEx, Valid, Abs.init, Abs.allows, Abs.next]

example : (Abs.init.after opsEx).cnt 1 3 = 2 ∧ (Abs.init.after opsEx).cnt 0 3 = 0 ∧ (Abs.init.after opsEx).cnt 0 4 = 1 := by
  simp [opsEx, Abs.init, Abs.after, Abs.next]

/-- the first request of object 0 and its vector have been freed, the others are live -/
example : (match run World.empty opsEx with | .ok w => some (w.frees, w.live) | .error _ => none) = some ([0, 2], [1, 3, 4]) := by decide

end LGD.C65
