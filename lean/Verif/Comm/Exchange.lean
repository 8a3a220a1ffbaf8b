import Verif.Comm.Confluence
import Mathlib.Tactic.Set

/-!
# One schedule

Building blocks of the schedule which is used with `one_for_all`: messages are copied and delivered as soon as both sides
have posted their operations.
-/

namespace LGD.Mpi

set_option linter.unusedSectionVars false

variable {L V M E : Type} [DecidableEq L] [Wire V M]

/-- all posted operations have been carried out -/
structure Quiet (s : St L V M E) : Prop where
  err : s.err = false
  sent : ∀ ch, ∀ e ∈ s.sends ch, e.data.isSome
  rcvd : ∀ ch, ∀ e ∈ s.recvs ch, e.got.isSome
  len : ∀ ch, (s.sends ch).length = (s.recvs ch).length
  reqs : ∀ r, ∀ q ∈ (s.ranks r).reqs, q.i < (if q.snd then (s.sends q.ch).length else (s.recvs q.ch).length)

theorem Quiet.finished {s : St L V M E} (h : Quiet s) {r : Nat} {q : Req L} (hq : q ∈ (s.ranks r).reqs) :
    finished s q = true := by
  have := h.reqs r q hq
  unfold Mpi.finished
  split
  · rename_i hs
    rw [if_pos hs] at this
    rw [List.getElem?_eq_getElem this]
    exact h.sent _ _ (List.getElem_mem this)
  · rename_i hs
    rw [if_neg hs] at this
    rw [List.getElem?_eq_getElem this]
    exact h.rcvd _ _ (List.getElem_mem this)

theorem quiet_start (procs : Nat → Proc L V M E) (mem : Nat → L → V) : Quiet (start procs mem) :=
  ⟨rfl, by simp [start], by simp [start], by simp [start], by simp [start]⟩

theorem Quiet.final {s : St L V M E} (h : Quiet s) (hd : ∀ r, (s.ranks r).proc = .done ∧ (s.ranks r).reqs = []) : Final s :=
  ⟨fun r => (hd r).1, h.err, h.sent, h.rcvd, h.len, fun r => (hd r).2⟩

/-- some moves in a row -/
def RunTo (eager : Ch → Nat → Bool) (s t : St L V M E) : Prop := ∃ n, Run eager n s t

theorem RunTo.refl {eager : Ch → Nat → Bool} (s : St L V M E) : RunTo eager s s := ⟨0, .refl s⟩

theorem RunTo.head {eager : Ch → Nat → Bool} {s t u : St L V M E} {a : Label}
    (h : next eager s a = some t) (h' : RunTo eager t u) : RunTo eager s u := by
  obtain ⟨n, hn⟩ := h'
  exact ⟨n + 1, .step ⟨a, h⟩ hn⟩

theorem RunTo.trans {eager : Ch → Nat → Bool} {s t u : St L V M E} (h : RunTo eager s t)
    (h' : RunTo eager t u) : RunTo eager s u := by
  obtain ⟨n, hn⟩ := h
  induction hn with
  | refl => exact h'
  | step hst _ ih =>
    obtain ⟨a, ha⟩ := hst
    exact RunTo.head ha (ih h')

/-! ## Moves of one rank -/

/-- the state with a different rank `r` -/
def St.setRank (s : St L V M E) (r : Nat) (R : Rank L V M E) : St L V M E :=
  { s with ranks := Function.update s.ranks r R }

theorem Quiet.setRank {s : St L V M E} (h : Quiet s) {r : Nat} {R : Rank L V M E}
    (hR : ∀ q ∈ R.reqs, q ∈ (s.ranks r).reqs) : Quiet (s.setRank r R) := by
  refine ⟨h.err, h.sent, h.rcvd, h.len, fun r' q hq => ?_⟩
  by_cases hr : r' = r
  · subst hr
    simp only [St.setRank, Function.update_self] at hq
    exact h.reqs r' q (hR q hq)
  · simp only [St.setRank, Function.update_of_ne hr] at hq
    exact h.reqs r' q hq

theorem run_wait {eager : Ch → Nat → Bool} {s : St L V M E} (h : Quiet s) {r w : Nat} {k : Proc L V M E}
    (hp : (s.ranks r).proc = .wait w k) :
    RunTo eager s (s.setRank r
      { s.ranks r with proc := k, reqs := (s.ranks r).reqs.filter fun q => q.h != w }) := by
  refine RunTo.head (a := .loc r) ?_ (RunTo.refl _)
  show locStep r s = _
  unfold locStep
  simp only [hp]
  rw [if_pos]
  · rfl
  · rw [List.all_eq_true]
    intro q hq
    rw [h.finished hq, Bool.or_true]

theorem run_read {eager : Ch → Nat → Bool} {s : St L V M E} {r : Nat} {ls : List L}
    {k : List V → Proc L V M E} (hp : (s.ranks r).proc = .read ls k)
    (hb : busyRead (s.ranks r).reqs ls = false) :
    RunTo eager s (s.setRank r { s.ranks r with proc := k (ls.map (s.ranks r).mem) }) := by
  refine RunTo.head (a := .loc r) ?_ (RunTo.refl _)
  show locStep r s = _
  unfold locStep
  simp only [hp, hb, Bool.or_false]
  rfl

theorem run_write {eager : Ch → Nat → Bool} {s : St L V M E} {r : Nat}
    {lvs : List (L × V)} {k : Proc L V M E} (hp : (s.ranks r).proc = .write lvs k)
    (hb : busyWrite (s.ranks r).reqs (lvs.map Prod.fst) = false) :
    RunTo eager s (s.setRank r
      { s.ranks r with proc := k, mem := store (lvs.map Prod.fst) (lvs.map Prod.snd) (s.ranks r).mem }) := by
  refine RunTo.head (a := .loc r) ?_ (RunTo.refl _)
  show locStep r s = _
  unfold locStep
  simp only [hp, hb, Bool.or_false]
  rfl

theorem run_emit {eager : Ch → Nat → Bool} {s : St L V M E} {r : Nat} {e : E} {k : Proc L V M E}
    (hp : (s.ranks r).proc = .emit e k) :
    RunTo eager s (s.setRank r { s.ranks r with proc := k, out := (s.ranks r).out ++ [e] }) := by
  refine RunTo.head (a := .loc r) ?_ (RunTo.refl _)
  show locStep r s = _
  unfold locStep
  simp only [hp]
  rfl

/-! ## Messages -/

/-- the state with different ranks `x` and `y` -/
def St.setRanks (s : St L V M E) (x : Nat) (X : Rank L V M E) (y : Nat) (Y : Rank L V M E) :
    Nat → Rank L V M E :=
  Function.update (Function.update s.ranks x X) y Y

theorem setRanks_apply (s : St L V M E) {x y : Nat} (hxy : x ≠ y) (X Y : Rank L V M E) :
    s.setRanks x X y Y x = X ∧ s.setRanks x X y Y y = Y ∧ ∀ z, z ≠ x → z ≠ y → s.setRanks x X y Y z = s.ranks z := by
  refine ⟨?_, ?_, fun z h1 h2 => ?_⟩
  · rw [St.setRanks, Function.update_of_ne hxy, Function.update_self]
  · rw [St.setRanks, Function.update_self]
  · rw [St.setRanks, Function.update_of_ne h2, Function.update_of_ne h1]

/-- all entries of the channels are carried out after one more message -/
theorem quiet_push {s : St L V M E} (h : Quiet s) {x y : Nat} (hxy : x ≠ y) {tag : Nat} {X Y : Rank L V M E}
    {p : Payload L M} {m : M} {ls : Option (List L)}
    (hX : ∀ q ∈ X.reqs, q ∈ (s.ranks x).reqs ∨
      (q.snd = true ∧ q.ch = ⟨x, y, tag⟩ ∧ q.i = (s.sends ⟨x, y, tag⟩).length))
    (hY : ∀ q ∈ Y.reqs, q ∈ (s.ranks y).reqs ∨
      (q.snd = false ∧ q.ch = ⟨x, y, tag⟩ ∧ q.i = (s.recvs ⟨x, y, tag⟩).length)) :
    Quiet { s with
      ranks := s.setRanks x X y Y
      sends := Function.update s.sends ⟨x, y, tag⟩ (s.sends ⟨x, y, tag⟩ ++ [⟨p, some m⟩])
      recvs := Function.update s.recvs ⟨x, y, tag⟩ (s.recvs ⟨x, y, tag⟩ ++ [⟨ls, some m⟩]) } := by
  have hq0 : ∀ r, ∀ q ∈ (s.ranks r).reqs, q.i <
      (if q.snd then (Function.update s.sends ⟨x, y, tag⟩ (s.sends ⟨x, y, tag⟩ ++ [⟨p, some m⟩]) q.ch).length
        else (Function.update s.recvs ⟨x, y, tag⟩ (s.recvs ⟨x, y, tag⟩ ++ [⟨ls, some m⟩]) q.ch).length) := by
    intro r q hq
    have := h.reqs r q hq
    by_cases hc : q.ch = ⟨x, y, tag⟩
    · rw [hc] at this ⊢
      split at this <;> rename_i hs <;> simp [hs] <;> omega
    · simpa [Function.update_of_ne hc] using this
  refine ⟨h.err, ?_, ?_, ?_, ?_⟩
  · intro ch e he
    by_cases hc : ch = ⟨x, y, tag⟩
    · subst hc
      simp only [Function.update_self, List.mem_append, List.mem_singleton] at he
      rcases he with he | rfl
      · exact h.sent _ e he
      · rfl
    · simp only [Function.update_of_ne hc] at he
      exact h.sent _ e he
  · intro ch e he
    by_cases hc : ch = ⟨x, y, tag⟩
    · subst hc
      simp only [Function.update_self, List.mem_append, List.mem_singleton] at he
      rcases he with he | rfl
      · exact h.rcvd _ e he
      · rfl
    · simp only [Function.update_of_ne hc] at he
      exact h.rcvd _ e he
  · intro ch
    by_cases hc : ch = ⟨x, y, tag⟩
    · subst hc
      simp [h.len]
    · simp [Function.update_of_ne hc, h.len]
  · intro r q hq
    simp only [St.setRanks] at hq
    by_cases hy : r = y
    · subst hy
      rw [Function.update_self] at hq
      rcases hY q hq with hq | ⟨h1, h2, h3⟩
      · exact hq0 _ q hq
      · simp [h1, h2, h3]
    · rw [Function.update_of_ne hy] at hq
      by_cases hx : r = x
      · subst hx
        rw [Function.update_self] at hq
        rcases hX q hq with hq | ⟨h1, h2, h3⟩
        · exact hq0 _ q hq
        · simp [h1, h2, h3]
      · rw [Function.update_of_ne hx] at hq
        exact hq0 _ q hq

/-- a temporary is sent and received by `MPI_Recv` -/
theorem run_const {eager : Ch → Nat → Bool} {s : St L V M E} (h : Quiet s) {x y : Nat} (hxy : x ≠ y)
    {tag w : Nat} {m : M} {k : Proc L V M E} {k' : M → Proc L V M E}
    (hx : (s.ranks x).proc = .isend y tag w (.const m) k) (hy : (s.ranks y).proc = .recv x tag k') :
    ∃ t i, RunTo eager s t ∧ Quiet t ∧
      t.ranks x = ⟨k, (s.ranks x).mem, ⟨w, true, ⟨x, y, tag⟩, i, []⟩ :: (s.ranks x).reqs, (s.ranks x).out⟩ ∧
      t.ranks y = ⟨k' m, (s.ranks y).mem, (s.ranks y).reqs, (s.ranks y).out⟩ ∧
      ∀ z, z ≠ x → z ≠ y → t.ranks z = s.ranks z := by
  set ch : Ch := ⟨x, y, tag⟩ with hch
  have hl := h.len ch
  let s1 : St L V M E := { s with
    ranks := Function.update s.ranks x { s.ranks x with proc := k, reqs := ⟨w, true, ch, (s.sends ch).length, []⟩ :: (s.ranks x).reqs }
    sends := Function.update s.sends ch (s.sends ch ++ [⟨.const m, none⟩]) }
  have e1 : next eager s (.loc x) = some s1 := by
    show locStep x s = _
    unfold locStep
    simp only [hx]
    simp [s1, busyRead, Payload.ls, overlap, ch]
  let s2 : St L V M E := { s1 with
    ranks := Function.update s1.ranks y { s.ranks y with proc := .recving x tag (s.recvs ch).length k' }
    recvs := Function.update s.recvs ch (s.recvs ch ++ [⟨none, none⟩]) }
  have e2 : next eager s1 (.loc y) = some s2 := by
    show locStep y s1 = _
    have hy1 : s1.ranks y = s.ranks y := Function.update_of_ne hxy.symm _ _
    unfold locStep
    simp only [hy1, hy]
    rfl
  let s3 : St L V M E := { s2 with
    sends := Function.update s.sends ch (s.sends ch ++ [⟨.const m, some m⟩]) }
  have e3 : next eager s2 (.fetch ch (s.sends ch).length) = some s3 := by
    refine fetch_some.2 ⟨.const m, ?_, Or.inr ?_, ?_⟩
    · simp [s2, s1]
    · simp [s2, hl]
    · simp [s3, s2, s1, Payload.msg]
  let s4 : St L V M E := { s3 with
    recvs := Function.update s.recvs ch (s.recvs ch ++ [⟨none, some m⟩]) }
  have e4 : next eager s3 (.deliver ch (s.sends ch).length) = some s4 := by
    refine deliver_some.2 ⟨.const m, m, none, ?_, ?_, ?_⟩
    · simp [s3]
    · simp [s3, s2, hl]
    · simp [s4, s3, s2, putMsg, overflow, hl]
  let s5 : St L V M E := { s4 with
    ranks := Function.update s1.ranks y { s.ranks y with proc := k' m } }
  have e5 : next eager s4 (.loc y) = some s5 := by
    show locStep y s4 = _
    have hy4 : s4.ranks y = { s.ranks y with proc := .recving x tag (s.recvs ch).length k' } := by
      simp [s4, s3, s2]
    unfold locStep
    simp only [hy4]
    have : (s4.recvs ⟨x, y, tag⟩)[(s.recvs ch).length]? = some ⟨none, some m⟩ := by
      simp [s4, ch]
    rw [this]
    simp [s5, s4, s3, s2]
  refine ⟨s5, (s.sends ch).length, RunTo.head e1 (RunTo.head e2 (RunTo.head e3 (RunTo.head e4 (RunTo.head e5
    (RunTo.refl _))))), ?_, (setRanks_apply s hxy _ _).1, (setRanks_apply s hxy _ _).2.1,
    (setRanks_apply s hxy _ _).2.2⟩
  refine quiet_push (s := s) h hxy ?_ ?_
  · intro q hq
    rcases List.mem_cons.1 hq with rfl | hq
    · exact Or.inr ⟨rfl, rfl, rfl⟩
    · exact Or.inl hq
  · intro q hq
    exact Or.inl hq

/-- memory is sent and received by `MPI_Irecv` -/
theorem run_cells {eager : Ch → Nat → Bool} {s : St L V M E} (h : Quiet s) {x y : Nat} (hxy : x ≠ y)
    {tag w w' : Nat} {ls ls' : List L} {k k' : Proc L V M E}
    (hx : (s.ranks x).proc = .isend y tag w (.cells ls) k) (hy : (s.ranks y).proc = .irecv x tag w' ls' k')
    (hbx : busyRead (s.ranks x).reqs ls = false) (hby : busyWrite (s.ranks y).reqs ls' = false)
    (hls : ls.length ≤ ls'.length) :
    ∃ t i j, RunTo eager s t ∧ Quiet t ∧
      t.ranks x = ⟨k, (s.ranks x).mem, ⟨w, true, ⟨x, y, tag⟩, i, ls⟩ :: (s.ranks x).reqs, (s.ranks x).out⟩ ∧
      t.ranks y = ⟨k', store ls' (ls.map (s.ranks x).mem) (s.ranks y).mem,
        ⟨w', false, ⟨x, y, tag⟩, j, ls'⟩ :: (s.ranks y).reqs, (s.ranks y).out⟩ ∧
      ∀ z, z ≠ x → z ≠ y → t.ranks z = s.ranks z := by
  set ch : Ch := ⟨x, y, tag⟩ with hch
  have hl := h.len ch
  let m : M := Wire.enc (ls.map (s.ranks x).mem)
  let Y : Rank L V M E := { s.ranks y with
          proc := k'
          reqs := ⟨w', false, ch, (s.recvs ch).length, ls'⟩ :: (s.ranks y).reqs }
  let s1 : St L V M E := { s with
    ranks := Function.update s.ranks x { s.ranks x with proc := k, reqs := ⟨w, true, ch, (s.sends ch).length, ls⟩ :: (s.ranks x).reqs }
    sends := Function.update s.sends ch (s.sends ch ++ [⟨.cells ls, none⟩]) }
  have e1 : next eager s (.loc x) = some s1 := by
    show locStep x s = _
    unfold locStep
    simp only [hx]
    simp [s1, Payload.ls, hbx, ch]
  let s2 : St L V M E := { s1 with
    ranks := Function.update s1.ranks y Y
    recvs := Function.update s.recvs ch (s.recvs ch ++ [⟨some ls', none⟩]) }
  have e2 : next eager s1 (.loc y) = some s2 := by
    show locStep y s1 = _
    have hy1 : s1.ranks y = s.ranks y := Function.update_of_ne hxy.symm _ _
    unfold locStep
    simp only [hy1, hy, hby, Bool.or_false]
    rfl
  let s3 : St L V M E := { s2 with
    sends := Function.update s.sends ch (s.sends ch ++ [⟨.cells ls, some m⟩]) }
  have e3 : next eager s2 (.fetch ch (s.sends ch).length) = some s3 := by
    refine fetch_some.2 ⟨.cells ls, ?_, Or.inr ?_, ?_⟩
    · simp [s2, s1]
    · simp [s2, hl]
    · simp [s3, s2, s1, Payload.msg, m, ch, Function.update_of_ne hxy]
  let s4 : St L V M E := { s3 with
    ranks := Function.update s1.ranks y { Y with mem := store ls' (ls.map (s.ranks x).mem) (s.ranks y).mem }
    recvs := Function.update s.recvs ch (s.recvs ch ++ [⟨some ls', some m⟩]) }
  have e4 : next eager s3 (.deliver ch (s.sends ch).length) = some s4 := by
    refine deliver_some.2 ⟨.cells ls, m, some ls', ?_, ?_, ?_⟩
    · simp [s3]
    · simp [s3, s2, hl]
    · simp [s4, s3, s2, putMsg, overflow, hl, fits, m, Wire.dec_enc, hls, ch, Y]
  refine ⟨s4, (s.sends ch).length, (s.recvs ch).length, RunTo.head e1 (RunTo.head e2 (RunTo.head e3 (RunTo.head e4
    (RunTo.refl _)))), ?_, (setRanks_apply s hxy _ _).1, (setRanks_apply s hxy _ _).2.1,
    (setRanks_apply s hxy _ _).2.2⟩
  refine quiet_push (s := s) h hxy ?_ ?_
  · intro q hq
    rcases List.mem_cons.1 hq with rfl | hq
    · exact Or.inr ⟨rfl, rfl, rfl⟩
    · exact Or.inl hq
  · intro q hq
    rcases List.mem_cons.1 hq with rfl | hq
    · exact Or.inr ⟨rfl, rfl, rfl⟩
    · exact Or.inl hq

end LGD.Mpi
