import Verif.Patch.PatchLemmas
import Mathlib.Data.Nat.ModEq

/-!
# C24 – `PatchBuffer` and `PatchBufferFixed`
-/

namespace LGD.C24
open LGD.Patch

variable {κ α : Type} [DecidableEq κ]

/-! ## Specification: a queue of snapshots -/

/-- `pending`: the steps requested and not yet served; `accepted`: the snapshots taken so far, oldest first; `taken`: how
many of them were already removed. -/
structure Queue (κ α : Type) where
  pending : Nat → Prop
  accepted : List (Nat × (κ → α))
  taken : Nat

/-- What each call may do. `cap` is the capacity (`none`: unlimited). -/
inductive Spec (region : List κ) (cap : Option Nat) : Queue κ α → Op κ α → Out κ α → Queue κ α → Prop
  /-- a request adds a step -/
  | request (q s) : Spec region cap q (.request s) .done { q with pending := fun t => q.pending t ∨ t = s }
  /-- steps before the next requested one are ignored -/
  | ignored (q g s) : (∀ t, q.pending t → s < t) → Spec region cap q (.put g s) .ignored q
  /-- leaving out a requested step is an error -/
  | skipped (q g s) : (∃ t, q.pending t ∧ t < s) → Spec region cap q (.put g s) .threw q
  /-- no space left -/
  | full (q g s n) : cap = some n → n ≤ q.accepted.length - q.taken → q.pending s → (∀ t, q.pending t → s ≤ t) →
      Spec region cap q (.put g s) .threw q
  /-- the next requested step is stored -/
  | accepted (q g s) : (∀ n, cap = some n → q.accepted.length - q.taken < n) → q.pending s → (∀ t, q.pending t → s ≤ t) →
      Spec region cap q (.put g s) .accepted
        { q with pending := fun t => q.pending t ∧ t ≠ s, accepted := q.accepted ++ [(s, g)] }
  /-- the oldest snapshot is copied to the destination, which is unchanged outside the region -/
  | loaded (q g s rm p r) : q.accepted[q.taken]? = some (s, p) → (∀ c ∈ region, r c = p c) → (∀ c, c ∉ region → r c = g c) →
      Spec region cap q (.get g s rm) (.loaded r) { q with taken := if rm then q.taken + 1 else q.taken }
  /-- no snapshot, or the oldest one is of another step -/
  | unavailable (q g s rm) : (∀ p, q.accepted[q.taken]? ≠ some (s, p)) → Spec region cap q (.get g s rm) .threw q

/-- a sequence of calls -/
inductive SpecRun (region : List κ) (cap : Option Nat) : Queue κ α → List (Op κ α × Out κ α) → Queue κ α → Prop
  | nil (q) : SpecRun region cap q [] q
  | cons (q op out q' l q'') : Spec region cap q op out q' → SpecRun region cap q' l q'' → SpecRun region cap q ((op, out) :: l) q''

/-- the requests come in order: none is made for a step that is not beyond the steps already stored -/
def InOrder (l : List (Op κ α × Out κ α)) : Prop :=
  l.Pairwise (fun a b => ∀ g t s, a = (.put g t, .accepted) → b.1 = .request s → t < s)

/-- nothing requested or stored -/
def Queue.empty : Queue κ α := { pending := fun _ => False, accepted := [], taken := 0 }

/-! ## The invariant -/

structure Common (req stored : List Nat) (q : Queue κ α) : Prop where
  reqSorted : req.Pairwise (· < ·)
  reqMem : ∀ t, t ∈ req ↔ q.pending t
  beyond : ∀ t, q.pending t → ∀ a ∈ q.accepted, a.1 < t
  takenLe : q.taken ≤ q.accepted.length
  storedEq : stored = (q.accepted.drop q.taken).map Prod.fst

theorem Common.push {req stored : List Nat} {q : Queue κ α} (h : Common req stored q) (s : Nat) (hs : ∀ a ∈ q.accepted, a.1 < s) :
    Common (setInsert s req) stored { q with pending := fun t => q.pending t ∨ t = s } where
  reqSorted := setInsert_sorted s req h.reqSorted
  reqMem t := by rw [mem_setInsert, h.reqMem]; tauto
  beyond t ht a ha := by
    rcases ht with ht | rfl
    · exact h.beyond t ht a ha
    · exact hs a ha
  takenLe := h.takenLe
  storedEq := h.storedEq

theorem Common.accept {m : Nat} {req stored : List Nat} {q : Queue κ α} (h : Common (m :: req) stored q) (g : κ → α) :
    Common req (setInsert m stored) { q with pending := fun t => q.pending t ∧ t ≠ m, accepted := q.accepted ++ [(m, g)] } where
  reqSorted := (List.pairwise_cons.1 h.reqSorted).2
  reqMem t := by
    show t ∈ req ↔ q.pending t ∧ t ≠ m
    rw [← h.reqMem, List.mem_cons]
    have := (List.pairwise_cons.1 h.reqSorted).1 t
    constructor
    · intro ht
      have := this ht
      exact ⟨Or.inr ht, by omega⟩
    · rintro ⟨rfl | p, r⟩
      · exact (r rfl).elim
      · exact p
  beyond t ht a ha := by
    have h0 : t ∈ m :: req := (h.reqMem t).2 ht.1
    rcases List.mem_append.1 ha with ha | ha
    · exact h.beyond t ht.1 a ha
    · rw [List.mem_singleton.1 ha]
      rcases List.mem_cons.1 h0 with rfl | p
      · exact (ht.2 rfl).elim
      · exact (List.pairwise_cons.1 h.reqSorted).1 t p
  takenLe := by
    have := h.takenLe
    simp only [List.length_append, List.length_singleton]
    omega
  storedEq := by
    have h1 := h.takenLe
    rw [setInsert_last, h.storedEq, List.drop_append_of_le_length h1]
    · simp
    · intro t ht
      rw [h.storedEq] at ht
      obtain ⟨a, ha, rfl⟩ := List.mem_map.1 ht
      exact h.beyond m ((h.reqMem m).1 (List.mem_cons_self ..)) a (List.mem_of_mem_drop ha)

theorem Common.pop {req stored : List Nat} {q : Queue κ α} (h : Common req stored q) (hne : stored ≠ []) :
    Common req stored.tail { q with taken := q.taken + 1 } where
  reqSorted := h.reqSorted
  reqMem := h.reqMem
  beyond := h.beyond
  takenLe := by
    have h1 := h.takenLe
    by_contra hcon
    apply hne
    have h2 : ¬ q.taken + 1 ≤ q.accepted.length := hcon
    rw [h.storedEq, List.drop_eq_nil_of_le (by omega)]
    rfl
  storedEq := by
    rw [h.storedEq]
    simp only
    rw [← List.map_tail, List.tail_drop]

theorem checkPut_some_true {req : List Nat} {s : Nat} (h : checkNanoStepPut req s = some true) : ∃ l, req = s :: l := by
  unfold checkNanoStepPut at h
  cases req with
  | nil => simp at h
  | cons m l =>
    simp only at h
    split at h
    · simp at h
    · split at h
      · simp at h
      · exact ⟨l, by rw [show s = m by omega]⟩

theorem checkGet_true {stored : List Nat} {s : Nat} (h : checkNanoStepGet stored s = true) : ∃ l, stored = s :: l := by
  unfold checkNanoStepGet at h
  cases stored with
  | nil => simp at h
  | cons m l =>
    simp only at h
    split at h
    · simp at h
    · rename_i hh; exact ⟨l, by rw [not_not.1 hh]⟩

theorem ignored_of {req stored : List Nat} {q : Queue κ α} (h : Common req stored q) {s : Nat} (hc : checkNanoStepPut req s = some false) :
    ∀ t, q.pending t → s < t := by
  intro t ht
  have ht' := (h.reqMem t).2 ht
  unfold checkNanoStepPut at hc
  cases req with
  | nil => simp at ht'
  | cons m l =>
    simp only at hc
    split at hc
    · rename_i hs
      rcases List.mem_cons.1 ht' with rfl | p
      · exact hs
      · have := (List.pairwise_cons.1 h.reqSorted).1 t p
        omega
    · split at hc <;> simp at hc

theorem threw_of {req stored : List Nat} {q : Queue κ α} (h : Common req stored q) {s : Nat} (hc : checkNanoStepPut req s = none) :
    ∃ t, q.pending t ∧ t < s := by
  unfold checkNanoStepPut at hc
  cases req with
  | nil => simp at hc
  | cons m l =>
    simp only at hc
    split at hc
    · simp at hc
    · split at hc
      · rename_i hs
        exact ⟨m, (h.reqMem m).1 (List.mem_cons_self ..), by omega⟩
      · simp at hc

theorem min_of {m : Nat} {req stored : List Nat} {q : Queue κ α} (h : Common (m :: req) stored q) :
    q.pending m ∧ ∀ t, q.pending t → m ≤ t := by
  refine ⟨(h.reqMem m).1 (List.mem_cons_self ..), fun t ht => ?_⟩
  rcases List.mem_cons.1 ((h.reqMem t).2 ht) with rfl | p
  · exact Nat.le_refl _
  · have := (List.pairwise_cons.1 h.reqSorted).1 t p; omega

theorem front_of {s : Nat} {req l : List Nat} {q : Queue κ α} (h : Common req (s :: l) q) :
    ∃ p rest, q.accepted.drop q.taken = (s, p) :: rest ∧ q.accepted[q.taken]? = some (s, p) := by
  have e := h.storedEq
  cases hd : q.accepted.drop q.taken with
  | nil => rw [hd] at e; simp at e
  | cons a rest =>
    rw [hd] at e
    simp only [List.map_cons, List.cons.injEq] at e
    obtain ⟨s', p⟩ := a
    obtain ⟨rfl, _⟩ := e
    refine ⟨p, rest, rfl, ?_⟩
    have := congrArg (fun l => l[0]?) hd
    simpa using this

theorem no_front {req stored : List Nat} {q : Queue κ α} (h : Common req stored q) {s : Nat} (hc : checkNanoStepGet stored s = false) (p : κ → α) :
    q.accepted[q.taken]? ≠ some (s, p) := by
  intro hf
  have e := h.storedEq
  have hd : (q.accepted.drop q.taken)[0]? = some (s, p) := by simpa using hf
  cases hq : q.accepted.drop q.taken with
  | nil => rw [hq] at hd; simp at hd
  | cons a rest =>
    rw [hq] at hd e
    simp only [List.getElem?_cons_zero, Option.some.injEq] at hd
    subst hd
    rw [e] at hc
    simp [checkNanoStepGet] at hc

/-! ## PatchBuffer -/

/-- **C24.** For every sequence of `pushRequest`, `put` and `get` calls on a `PatchBuffer` (with the requests in order),
all observable results are those of the queue of snapshots: `get` delivers the content of the region at the time of the
matching `put`, nothing is lost, duplicated or delivered for a step that was not requested, and `std::logic_error` is
thrown in exactly the cases listed there. -/
theorem patchbuffer_queue (region : List κ) (hr : region.Nodup) (ops : List (Op κ α)) :
    InOrder (PB.run region {} ops) → ∃ q, SpecRun region none Queue.empty (PB.run region {} ops) q := by
  suffices gen : ∀ (b : PB α) (q : Queue κ α), Common b.req b.stored q →
      b.regions = (q.accepted.drop q.taken).map (fun a => saveRegion region a.2) →
      (∀ x ∈ PB.run region b ops, ∀ s, x.1 = .request s → ∀ a ∈ q.accepted, a.1 < s) → InOrder (PB.run region b ops) →
      ∃ q', SpecRun region none q (PB.run region b ops) q' by
    intro ho
    refine gen {} Queue.empty ?_ rfl (fun _ _ _ _ a ha => by simp [Queue.empty] at ha) ho
    exact ⟨List.Pairwise.nil, fun t => by simp [Queue.empty], fun t ht => ht.elim, by simp [Queue.empty], rfl⟩
  induction ops with
  | nil => intro b q _ _ _ _; exact ⟨q, .nil q⟩
  | cons op ops ih =>
    intro b q hc hreg hfut hord
    have hstep : PB.run region b (op :: ops) = (op, (b.step region op).2) :: PB.run region (b.step region op).1 ops := rfl
    rw [hstep] at hfut hord ⊢
    have hord' := List.pairwise_cons.1 hord
    -- enough: one step
    suffices one : ∃ q', Spec region none q op (b.step region op).2 q' ∧ Common (b.step region op).1.req (b.step region op).1.stored q' ∧
        (b.step region op).1.regions = (q'.accepted.drop q'.taken).map (fun a => saveRegion region a.2) ∧
        (q'.accepted = q.accepted ∨ ∃ g t, (op, (b.step region op).2) = (.put g t, .accepted) ∧ q'.accepted = q.accepted ++ [(t, g)]) by
      obtain ⟨q', s1, s2, s3, s4⟩ := one
      obtain ⟨q'', h''⟩ := ih _ q' s2 s3 (by
        intro x hx s hs a ha
        rcases s4 with e | ⟨g, t, e1, e2⟩
        · rw [e] at ha
          exact hfut x (List.mem_cons_of_mem _ hx) s hs a ha
        · rw [e2] at ha
          rcases List.mem_append.1 ha with ha | ha
          · exact hfut x (List.mem_cons_of_mem _ hx) s hs a ha
          · rw [List.mem_singleton.1 ha]
            exact hord'.1 x hx g t s e1 hs) hord'.2
      exact ⟨q'', .cons _ _ _ q' _ _ s1 h''⟩
    cases op with
    | request s =>
      refine ⟨_, .request q s, hc.push s (hfut _ (List.mem_cons_self ..) s rfl), hreg, Or.inl rfl⟩
    | put g s =>
      show ∃ q', Spec region none q (.put g s) (b.put region g s).2 q' ∧ Common (b.put region g s).1.req (b.put region g s).1.stored q' ∧ (b.put region g s).1.regions = _ ∧ (_ ∨ ∃ g' t, (_, (b.put region g s).2) = _ ∧ _)
      unfold PB.put
      cases hcp : checkNanoStepPut b.req s with
      | none => exact ⟨q, .skipped q g s (threw_of hc hcp), hc, hreg, Or.inl rfl⟩
      | some v =>
        cases v with
        | false => exact ⟨q, .ignored q g s (ignored_of hc hcp), hc, hreg, Or.inl rfl⟩
        | true =>
          obtain ⟨l, hl⟩ := checkPut_some_true hcp
          obtain ⟨req, stored, regions⟩ := b
          simp only at hl hc hreg hcp ⊢
          subst hl
          obtain ⟨h1, h2⟩ := min_of hc
          refine ⟨_, .accepted q g s (fun n hn => by simp at hn) h1 h2, hc.accept g, ?_, Or.inr ⟨g, s, rfl, rfl⟩⟩
          simp only
          rw [hreg, List.drop_append_of_le_length hc.takenLe, List.map_append]
          rfl
    | get g s rm =>
      show ∃ q', Spec region none q (.get g s rm) (b.get region g s rm).2 q' ∧ Common (b.get region g s rm).1.req (b.get region g s rm).1.stored q' ∧ (b.get region g s rm).1.regions = _ ∧ (_ ∨ ∃ g' t, (_, (b.get region g s rm).2) = _ ∧ _)
      unfold PB.get
      cases hcg : checkNanoStepGet b.stored s with
      | false => exact ⟨q, .unavailable q g s rm (no_front hc hcg), hc, hreg, Or.inl rfl⟩
      | true =>
        obtain ⟨l, hl⟩ := checkGet_true hcg
        obtain ⟨req, stored, regions⟩ := b
        simp only at hl hc hreg hcg
        subst hl
        obtain ⟨p, rest, hd, hf⟩ := front_of hc
        rw [hd, List.map_cons] at hreg
        subst hreg
        simp only [if_true]
        have hl : ∀ c, loadRegion region (saveRegion region p) g c = if c ∈ region then p c else g c := load_save region hr p g
        refine ⟨_, .loaded q g s rm p _ hf (fun c hcm => by rw [hl, if_pos hcm]) (fun c hcm => by rw [hl, if_neg hcm]), ?_⟩
        cases rm with
        | false => exact ⟨hc, by simp only [Bool.false_eq_true, if_false]; rw [hd]; rfl, Or.inl rfl⟩
        | true =>
          refine ⟨hc.pop (by simp), ?_, Or.inl rfl⟩
          simp only [if_true]
          rw [← List.tail_drop, hd]
          rfl

/-! ## PatchBufferFixed -/

/-- ring buffer invariant -/
structure Ring (size : Nat) (region : List κ) (b : PBF α) (q : Queue κ α) : Prop where
  len : q.accepted.length - q.taken ≤ size
  rd : 0 < size → b.indexRead < size
  wr : 0 < size → b.indexWrite = (b.indexRead + (q.accepted.length - q.taken)) % size
  cells : ∀ i p, (q.accepted.drop q.taken)[i]? = some p → b.buffer ((b.indexRead + i) % size) = saveRegion region p.2

/-- **C24.** `PatchBufferFixed<…, size>` delivers the same results as the queue with capacity `size`. -/
theorem patchbufferfixed_queue (region : List κ) (hr : region.Nodup) (size : Nat) (initial : Nat → List α) (ops : List (Op κ α)) :
    InOrder (PBF.run size region { buffer := initial } ops) →
    ∃ q, SpecRun region (some size) Queue.empty (PBF.run size region { buffer := initial } ops) q := by
  suffices gen : ∀ (b : PBF α) (q : Queue κ α), Common b.req b.stored q → Ring size region b q →
      (∀ x ∈ PBF.run size region b ops, ∀ s, x.1 = .request s → ∀ a ∈ q.accepted, a.1 < s) → InOrder (PBF.run size region b ops) →
      ∃ q', SpecRun region (some size) q (PBF.run size region b ops) q' by
    intro ho
    refine gen _ Queue.empty ?_ ?_ (fun _ _ _ _ a ha => by simp [Queue.empty] at ha) ho
    · exact ⟨List.Pairwise.nil, fun t => by simp [Queue.empty], fun t ht => ht.elim, by simp [Queue.empty], rfl⟩
    · exact ⟨by simp [Queue.empty], fun h => h, fun _ => by simp [Queue.empty], fun i p h => by simp [Queue.empty] at h⟩
  induction ops with
  | nil => intro b q _ _ _ _; exact ⟨q, .nil q⟩
  | cons op ops ih =>
    intro b q hc hring hfut hord
    have hstep : PBF.run size region b (op :: ops) = (op, (b.step size region op).2) :: PBF.run size region (b.step size region op).1 ops := rfl
    rw [hstep] at hfut hord ⊢
    have hord' := List.pairwise_cons.1 hord
    suffices one : ∃ q', Spec region (some size) q op (b.step size region op).2 q' ∧ Common (b.step size region op).1.req (b.step size region op).1.stored q' ∧
        Ring size region (b.step size region op).1 q' ∧
        (q'.accepted = q.accepted ∨ ∃ g t, (op, (b.step size region op).2) = (.put g t, .accepted) ∧ q'.accepted = q.accepted ++ [(t, g)]) by
      obtain ⟨q', s1, s2, s3, s4⟩ := one
      obtain ⟨q'', h''⟩ := ih _ q' s2 s3 (by
        intro x hx s hs a ha
        rcases s4 with e | ⟨g, t, e1, e2⟩
        · rw [e] at ha
          exact hfut x (List.mem_cons_of_mem _ hx) s hs a ha
        · rw [e2] at ha
          rcases List.mem_append.1 ha with ha | ha
          · exact hfut x (List.mem_cons_of_mem _ hx) s hs a ha
          · rw [List.mem_singleton.1 ha]
            exact hord'.1 x hx g t s e1 hs) hord'.2
      exact ⟨q'', .cons _ _ _ q' _ _ s1 h''⟩
    have hlen : b.stored.length = q.accepted.length - q.taken := by rw [hc.storedEq]; simp
    cases op with
    | request s =>
      refine ⟨_, .request q s, hc.push s (hfut _ (List.mem_cons_self ..) s rfl), ⟨hring.len, hring.rd, hring.wr, hring.cells⟩, Or.inl rfl⟩
    | put g s =>
      show ∃ q', Spec region (some size) q (.put g s) (b.put size region g s).2 q' ∧ Common (b.put size region g s).1.req (b.put size region g s).1.stored q' ∧ Ring size region (b.put size region g s).1 q' ∧ (_ ∨ ∃ g' t, (_, (b.put size region g s).2) = _ ∧ _)
      unfold PBF.put
      cases hcp : checkNanoStepPut b.req s with
      | none => exact ⟨q, .skipped q g s (threw_of hc hcp), hc, hring, Or.inl rfl⟩
      | some v =>
        cases v with
        | false => exact ⟨q, .ignored q g s (ignored_of hc hcp), hc, hring, Or.inl rfl⟩
        | true =>
          obtain ⟨l, hl⟩ := checkPut_some_true hcp
          rw [hl] at hc
          obtain ⟨h1, h2⟩ := min_of hc
          by_cases hfull : b.stored.length ≥ size
          · simp only [if_pos hfull]
            rw [← hl] at hc
            exact ⟨q, .full q g s size rfl (by omega) h1 h2, hc, hring, Or.inl rfl⟩
          · simp only [if_neg hfull]
            have h0 : 0 < size := by omega
            have hn : q.accepted.length - q.taken < size := by omega
            refine ⟨_, .accepted q g s (fun n hn' => by simp only [Option.some.injEq] at hn'; omega) h1 h2, ?_, ?_, Or.inr ⟨g, s, rfl, rfl⟩⟩
            · have := hc.accept g
              simp only [hl]
              exact this
            · have ht := hc.takenLe
              refine ⟨by simp only [List.length_append, List.length_singleton]; omega, fun _ => hring.rd h0, fun _ => ?_, fun i p hi => ?_⟩
              · simp only [List.length_append, List.length_singleton]
                rw [hring.wr h0, Nat.mod_add_mod]
                congr 1
                omega
              · simp only at hi ⊢
                rw [List.drop_append_of_le_length ht] at hi
                have hr0 := hring.rd h0
                have hw := hring.wr h0
                by_cases hlt : i < (q.accepted.drop q.taken).length
                · rw [List.getElem?_append_left hlt] at hi
                  rw [Function.update_of_ne]
                  · exact hring.cells i p hi
                  · rw [hw]
                    simp only [List.length_drop] at hlt
                    intro e
                    have := Nat.ModEq.add_left_cancel' b.indexRead (show Nat.ModEq size _ _ from e)
                    unfold Nat.ModEq at this
                    rw [Nat.mod_eq_of_lt (by omega), Nat.mod_eq_of_lt (by omega)] at this
                    omega
                · rw [List.getElem?_append_right (by omega)] at hi
                  have hi' : i - (q.accepted.drop q.taken).length = 0 := by
                    by_contra hne
                    rw [List.getElem?_eq_none (by simp only [List.length_singleton]; omega)] at hi
                    simp at hi
                  rw [hi'] at hi
                  simp only [List.getElem?_cons_zero, Option.some.injEq] at hi
                  subst hi
                  simp only [List.length_drop] at hi' hlt
                  rw [hw, show i = q.accepted.length - q.taken by omega, Function.update_self]
    | get g s rm =>
      show ∃ q', Spec region (some size) q (.get g s rm) (b.get size region g s rm).2 q' ∧ Common (b.get size region g s rm).1.req (b.get size region g s rm).1.stored q' ∧ Ring size region (b.get size region g s rm).1 q' ∧ (_ ∨ ∃ g' t, (_, (b.get size region g s rm).2) = _ ∧ _)
      unfold PBF.get
      cases hcg : checkNanoStepGet b.stored s with
      | false => exact ⟨q, .unavailable q g s rm (no_front hc hcg), hc, hring, Or.inl rfl⟩
      | true =>
        obtain ⟨l, hl⟩ := checkGet_true hcg
        rw [hl] at hc hlen
        obtain ⟨p, rest, hd, hf⟩ := front_of hc
        have h0 : 0 < size := by have := hring.len; simp only [List.length_cons] at hlen; omega
        have hcell := hring.cells 0 (s, p) (by rw [hd]; rfl)
        rw [Nat.add_zero, Nat.mod_eq_of_lt (hring.rd h0)] at hcell
        simp only [if_true, hcell]
        have hl' : ∀ c, loadRegion region (saveRegion region p) g c = if c ∈ region then p c else g c := load_save region hr p g
        refine ⟨_, .loaded q g s rm p _ hf (fun c hcm => by rw [hl', if_pos hcm]) (fun c hcm => by rw [hl', if_neg hcm]), ?_⟩
        cases rm with
        | false =>
          rw [← hl] at hc
          exact ⟨hc, ⟨hring.len, hring.rd, hring.wr, hring.cells⟩, Or.inl rfl⟩
        | true =>
          have hp := hc.pop (by simp)
          refine ⟨by simp only [if_true, hl]; exact hp, ?_, Or.inl rfl⟩
          simp only [if_true]
          have hle : q.taken + 1 ≤ q.accepted.length := hp.takenLe
          refine ⟨by have := hring.len; simp only; omega, fun _ => Nat.mod_lt _ h0, fun _ => ?_, fun i a hi => ?_⟩
          · simp only
            rw [hring.wr h0, Nat.mod_add_mod]
            congr 1
            omega
          · simp only at hi ⊢
            rw [Nat.mod_add_mod, Nat.add_assoc, Nat.add_comm 1 i]
            refine hring.cells (i + 1) a ?_
            rw [List.getElem?_drop] at hi ⊢
            rw [← hi]
            congr 1
            omega

/-! ## What this means for a history -/

/-- the patches stored in the course of a history -/
def storedPuts (l : List (Op κ α × Out κ α)) : List (Nat × (κ → α)) :=
  l.filterMap (fun x => match x with | (.put g s, .accepted) => some (s, g) | _ => none)

/-- the patches taken out in the course of a history -/
def takenOut (l : List (Op κ α × Out κ α)) : List (Nat × (κ → α)) :=
  l.filterMap (fun x => match x with | (.get _ s true, .loaded r) => some (s, r) | _ => none)

theorem run_facts (region : List κ) (cap : Option Nat) (q : Queue κ α) (l : List (Op κ α × Out κ α)) (q' : Queue κ α)
    (h : SpecRun region cap q l q') :
    q'.accepted = q.accepted ++ storedPuts l ∧ q'.taken = q.taken + (takenOut l).length ∧
    (∀ k s r, (takenOut l)[k]? = some (s, r) → ∃ p, q'.accepted[q.taken + k]? = some (s, p) ∧ ∀ c ∈ region, r c = p c) ∧
    (∀ a ∈ storedPuts l, q.pending a.1 ∨ ∃ o, (Op.request a.1, o) ∈ l) ∧
    (∀ x ∈ l, ∀ g s rm r, x = (.get g s rm, .loaded r) →
      (∃ p, (s, p) ∈ q'.accepted ∧ ∀ c ∈ region, r c = p c) ∧ ∀ c, c ∉ region → r c = g c) := by
  induction h with
  | nil q => simp [storedPuts, takenOut]
  | cons q op out q1 l q2 h1 h2 ih =>
    obtain ⟨i1, i2, i3, i4, i5⟩ := ih
    have key : ∀ (sp : List (Nat × (κ → α))) (tk : List (Nat × (κ → α))),
        storedPuts ((op, out) :: l) = sp ++ storedPuts l → takenOut ((op, out) :: l) = tk ++ takenOut l →
        q1.accepted = q.accepted ++ sp → q1.taken = q.taken + tk.length →
        (∀ k s r, tk[k]? = some (s, r) → ∃ p, q1.accepted[q.taken + k]? = some (s, p) ∧ ∀ c ∈ region, r c = p c) →
        (∀ a ∈ sp, q.pending a.1) → (∀ t, q1.pending t → q.pending t ∨ op = .request t) →
        (∀ g s rm r, op = .get g s rm → out = .loaded r →
          (∃ p, (s, p) ∈ q1.accepted ∧ ∀ c ∈ region, r c = p c) ∧ ∀ c, c ∉ region → r c = g c) →
        q2.accepted = q.accepted ++ storedPuts ((op, out) :: l) ∧ q2.taken = q.taken + (takenOut ((op, out) :: l)).length ∧
        (∀ k s r, (takenOut ((op, out) :: l))[k]? = some (s, r) → ∃ p, q2.accepted[q.taken + k]? = some (s, p) ∧ ∀ c ∈ region, r c = p c) ∧
        (∀ a ∈ storedPuts ((op, out) :: l), q.pending a.1 ∨ ∃ o, (Op.request a.1, o) ∈ (op, out) :: l) ∧
        (∀ x ∈ (op, out) :: l, ∀ g s rm r, x = (.get g s rm, .loaded r) →
          (∃ p, (s, p) ∈ q2.accepted ∧ ∀ c ∈ region, r c = p c) ∧ ∀ c, c ∉ region → r c = g c) := by
      intro sp tk e1 e2 e3 e4 e5 e6 e7 e8
      refine ⟨by rw [i1, e1, e3, List.append_assoc], by rw [i2, e2, e4, List.length_append]; omega, fun k s r hk => ?_, fun a ha => ?_, fun x hx g s rm r hxe => ?_⟩
      · rw [e2] at hk
        by_cases hlt : k < tk.length
        · rw [List.getElem?_append_left hlt] at hk
          obtain ⟨p, p1, p2⟩ := e5 k s r hk
          refine ⟨p, ?_, p2⟩
          rw [i1, List.getElem?_append_left]
          · exact p1
          · by_contra hcon
            rw [List.getElem?_eq_none (by omega)] at p1
            simp at p1
        · rw [List.getElem?_append_right (by omega)] at hk
          obtain ⟨p, p1, p2⟩ := i3 _ s r hk
          refine ⟨p, ?_, p2⟩
          rw [← p1, e4]
          congr 1
          omega
      · rw [e1] at ha
        rcases List.mem_append.1 ha with ha | ha
        · exact Or.inl (e6 a ha)
        · rcases i4 a ha with p | ⟨o, p⟩
          · rcases e7 _ p with p | p
            · exact Or.inl p
            · exact Or.inr ⟨out, by rw [p]; exact List.mem_cons_self ..⟩
          · exact Or.inr ⟨o, List.mem_cons_of_mem _ p⟩
      · rcases List.mem_cons.1 hx with rfl | hx
        · obtain ⟨a1, a2⟩ := Prod.mk.inj hxe
          obtain ⟨⟨p, p1, p2⟩, p3⟩ := e8 g s rm r a1 a2
          exact ⟨⟨p, by rw [i1]; exact List.mem_append_left _ p1, p2⟩, p3⟩
        · exact i5 x hx g s rm r hxe
    cases h1 with
    | request s => exact key [] [] rfl rfl (by simp) rfl (by simp) (by simp) (fun t ht => ht.imp id (fun e => by rw [e])) (by simp)
    | ignored g s hh => exact key [] [] rfl rfl (by simp) rfl (by simp) (by simp) (fun t ht => Or.inl ht) (by simp)
    | skipped g s hh => exact key [] [] rfl rfl (by simp) rfl (by simp) (by simp) (fun t ht => Or.inl ht) (by simp)
    | full g s n => exact key [] [] rfl rfl (by simp) rfl (by simp) (by simp) (fun t ht => Or.inl ht) (by simp)
    | accepted g s a1 a2 a3 =>
      exact key [(s, g)] [] rfl rfl rfl rfl (by simp) (by simpa using a2) (fun t ht => Or.inl ht.1) (by simp)
    | loaded g s rm p r a1 a2 a3 =>
      have hm : (s, p) ∈ q.accepted := List.mem_of_getElem? a1
      have last : ∀ g' s' rm' r', Op.get g s rm = Op.get g' s' rm' → Out.loaded r = Out.loaded r' →
          (∃ p', (s', p') ∈ q.accepted ∧ ∀ c ∈ region, r' c = p' c) ∧ ∀ c, c ∉ region → r' c = g' c := by
        intro g' s' rm' r' e1 e2
        injection e1 with e1 e3 e4
        injection e2 with e2
        subst e1 e2 e3
        exact ⟨⟨p, hm, a2⟩, a3⟩
      cases rm with
      | false => exact key [] [] rfl rfl (by simp) rfl (by simp) (by simp) (fun t ht => Or.inl ht) last
      | true =>
        refine key [] [(s, r)] rfl rfl (by simp) rfl ?_ (by simp) (fun t ht => Or.inl ht) last
        intro k s' r' hk
        cases k with
        | succ k => simp at hk
        | zero =>
          simp only [List.getElem?_cons_zero, Option.some.injEq, Prod.mk.injEq] at hk
          obtain ⟨rfl, rfl⟩ := hk
          exact ⟨p, a1, a2⟩
    | unavailable g s rm hh => exact key [] [] rfl (by cases rm <;> rfl) (by simp) rfl (by simp) (by simp) (fun t ht => Or.inl ht) (by simp)

/-- **C24**, read off the history: the patches taken out are, one by one and in order, the ones stored (the same steps, the
same cells); each stored step was requested; and whatever `get` loads for a step is what `put` stored for this step. -/
theorem patchbuffer_history (region : List κ) (hr : region.Nodup) (ops : List (Op κ α)) (ho : InOrder (PB.run region {} ops)) :
    (∀ (k s : Nat) (r : κ → α), (takenOut (PB.run region {} ops))[k]? = some (s, r) →
      ∃ p, (storedPuts (PB.run region {} ops))[k]? = some (s, p) ∧ ∀ c ∈ region, r c = p c) ∧
    (∀ a ∈ storedPuts (PB.run region {} ops), ∃ o, (Op.request a.1, o) ∈ PB.run region {} ops) ∧
    (∀ x ∈ PB.run region {} ops, ∀ g s rm r, x = (.get g s rm, .loaded r) →
      (∃ p, (s, p) ∈ storedPuts (PB.run region {} ops) ∧ ∀ c ∈ region, r c = p c) ∧ ∀ c, c ∉ region → r c = g c) := by
  obtain ⟨q, hq⟩ := patchbuffer_queue region hr ops ho
  obtain ⟨h1, h2, h3, h4, h5⟩ := run_facts region none _ _ _ hq
  have e : q.accepted = storedPuts (PB.run region {} ops) := by simpa [Queue.empty] using h1
  refine ⟨fun k s r hk => ?_, fun a ha => ?_, fun x hx g s rm r hxe => ?_⟩
  · obtain ⟨p, p1, p2⟩ := h3 k s r hk
    refine ⟨p, ?_, p2⟩
    rw [e] at p1
    rw [← p1]
    congr 1
    show k = 0 + k
    omega
  · rcases h4 a ha with p | p
    · exact p.elim
    · exact p
  · rw [← e]
    exact h5 x hx g s rm r hxe

/-- **C24**, the same for `PatchBufferFixed`. -/
theorem patchbufferfixed_history (region : List κ) (hr : region.Nodup) (size : Nat) (initial : Nat → List α) (ops : List (Op κ α))
    (l : List (Op κ α × Out κ α)) (hl : l = PBF.run size region { buffer := initial } ops) (ho : InOrder l) :
    (∀ (k s : Nat) (r : κ → α), (takenOut l)[k]? = some (s, r) → ∃ p, (storedPuts l)[k]? = some (s, p) ∧ ∀ c ∈ region, r c = p c) ∧
    (∀ a ∈ storedPuts l, ∃ o, (Op.request a.1, o) ∈ l) ∧
    (∀ x ∈ l, ∀ g s rm r, x = (.get g s rm, .loaded r) →
      (∃ p, (s, p) ∈ storedPuts l ∧ ∀ c ∈ region, r c = p c) ∧ ∀ c, c ∉ region → r c = g c) := by
  subst hl
  obtain ⟨q, hq⟩ := patchbufferfixed_queue region hr size initial ops ho
  obtain ⟨h1, h2, h3, h4, h5⟩ := run_facts region (some size) _ _ _ hq
  generalize PBF.run size region { buffer := initial } ops = l at *
  have e : q.accepted = storedPuts l := by simpa [Queue.empty] using h1
  refine ⟨fun k s r hk => ?_, fun a ha => ?_, fun x hx g s rm r hxe => ?_⟩
  · obtain ⟨p, p1, p2⟩ := h3 k s r hk
    refine ⟨p, ?_, p2⟩
    rw [e] at p1
    rw [← p1]
    congr 1
    show k = 0 + k
    omega
  · rcases h4 a ha with p | p
    · exact p.elim
    · exact p
  · rw [← e]
    exact h5 x hx g s rm r hxe

/-! ## Non-vacuity and the need for ordered requests -/

/-- the shape of an outcome, with the loaded cell -/
def shape : Out Unit Nat → Nat × Nat
  | .done => (0, 0)
  | .ignored => (1, 0)
  | .accepted => (2, 0)
  | .threw => (3, 0)
  | .loaded g => (4, g ())

/-- requests 3 and 5, puts at 2 to 6, gets -/
def demo : List (Op Unit Nat) :=
  [.request 3, .request 5, .put (fun _ => 20) 2, .put (fun _ => 30) 3, .get (fun _ => 0) 3 false, .put (fun _ => 40) 4,
   .put (fun _ => 50) 5, .put (fun _ => 60) 6, .get (fun _ => 0) 5 true, .get (fun _ => 0) 3 true, .get (fun _ => 0) 5 true]

example : (PB.run [()] {} demo).map (fun x => shape x.2) =
    [(0, 0), (0, 0), (1, 0), (2, 0), (4, 30), (1, 0), (2, 0), (1, 0), (3, 0), (4, 30), (4, 50)] := by decide

example : InOrder (PB.run [()] {} demo) := by
  refine List.pairwise_iff_getElem.2 fun i j hi hj hij g t s h1 h2 => ?_
  have hj' : j < 11 := hj
  have : 2 ≤ j ∨ j = 1 := by omega
  rcases this with h | rfl
  · have : j ∈ [2, 3, 4, 5, 6, 7, 8, 9, 10] := by simp; omega
    simp only [List.mem_cons, List.not_mem_nil, or_false] at this
    rcases this with rfl | rfl | rfl | rfl | rfl | rfl | rfl | rfl | rfl <;> cases h2
  · obtain rfl : i = 0 := by omega
    cases h1

example : (PBF.run 1 [()] { buffer := fun _ => [] } demo).map (fun x => shape x.2) =
    [(0, 0), (0, 0), (1, 0), (2, 0), (4, 30), (1, 0), (3, 0), (3, 0), (3, 0), (4, 30), (3, 0)] := by decide

/-- Requests that go back in time break the buffer: here step 5 is stored before step 3, and `get(3)` then delivers the
content of step 5. -/
theorem unordered_requests_wrong : ∃ ops : List (Op Unit Nat), ∃ r,
    (Op.get (fun _ => 0) 3 true, Out.loaded r) ∈ PB.run [()] {} ops ∧ ∀ p, (3, p) ∈ storedPuts (PB.run [()] {} ops) → r () ≠ p () := by
  refine ⟨[.request 5, .put (fun _ => 50) 5, .request 3, .put (fun _ => 30) 3, .get (fun _ => 0) 3 true], _,
    List.mem_cons_of_mem _ (List.mem_cons_of_mem _ (List.mem_cons_of_mem _ (List.mem_cons_of_mem _ (List.mem_cons_self ..)))), ?_⟩
  intro p hp
  have : storedPuts (PB.run [()] {} [.request 5, .put (fun _ => (50 : Nat)) 5, .request 3, .put (fun _ => 30) 3, .get (fun _ => 0) 3 true]) =
    [(5, fun _ => 50), (3, fun _ => 30)] := rfl
  rw [this] at hp
  simp only [List.mem_cons, Prod.mk.injEq, List.not_mem_nil, or_false] at hp
  rcases hp with ⟨h, _⟩ | ⟨_, rfl⟩
  · omega
  · decide

end LGD.C24
