import Verif.IO.FileModel
import Verif.Props.C33Displaced
import Verif.Props.C42
import Mathlib.Data.List.Induction

/-!
# Lemmas on files
-/

namespace LGD.IO
open LGD.C13 LGD.C14 LGD.Store LGD.C33

variable {B α β : Type} {n : Nat} {wraps : Nat → Bool}

/-- the file contains these bytes at a position -/
def BytesAt (f : File B) (off : Nat) (bs : List B) : Prop := ∀ j (h : j < bs.length), f (off + j) = some bs[j]

/-- a value can be stored: its representation has the size of the datatype and can be decoded -/
structure Stores (T : DType B β) (v : β) : Prop where
  len : (T.enc v).length = T.size
  back : T.dec (T.enc v) = v

/-- whatever is written is in accordance with `ideal` -/
def Agrees (ideal : File B) (op : WOp B) : Prop := ∀ j (h : j < op.bytes.length), ideal (op.off + j) = some op.bytes[j]

/-- position `i` of file `s` is written -/
def Covers (s : String) (i : Nat) (op : WOp B) : Prop := op.name = s ∧ op.off ≤ i ∧ i < op.off + op.bytes.length

theorem applyOp_covers {fs : Files B} {op : WOp B} {s : String} {i : Nat} {ideal : File B} (h : Agrees ideal op) (hc : Covers s i op) :
    applyOp fs op s i = ideal i := by
  obtain ⟨h1, h2, h3⟩ := hc
  unfold applyOp
  rw [if_pos ⟨h1.symm, h2, h3⟩, List.getElem?_eq_getElem (by omega)]
  have := h (i - op.off) (by omega)
  rw [← this]
  congr 1
  omega

theorem applyOp_other {fs : Files B} {op : WOp B} {s : String} {i : Nat} (hc : ¬ Covers s i op) : applyOp fs op s i = fs s i := by
  unfold applyOp
  rw [if_neg]
  rintro ⟨h1, h2, h3⟩
  exact hc ⟨h1.symm, h2, h3⟩

theorem applyOps_keep (ops : List (WOp B)) (ideal : File B) (s : String) (i : Nat) (h : ∀ op ∈ ops, op.name = s → Agrees ideal op) (fs : Files B) (h0 : fs s i = ideal i) :
    applyOps fs ops s i = ideal i := by
  induction ops generalizing fs with
  | nil => exact h0
  | cons op ops ih =>
    unfold applyOps
    rw [List.foldl_cons]
    apply ih (fun o ho => h o (List.mem_cons_of_mem _ ho))
    by_cases hc : Covers s i op
    · exact applyOp_covers (h op (List.mem_cons_self ..) hc.1) hc
    · rw [applyOp_other hc, h0]

theorem applyOps_covered (ops : List (WOp B)) (ideal : File B) (s : String) (i : Nat) (h : ∀ op ∈ ops, op.name = s → Agrees ideal op) (fs : Files B)
    (hc : ∃ op ∈ ops, Covers s i op) : applyOps fs ops s i = ideal i := by
  induction ops generalizing fs with
  | nil => obtain ⟨_, h, _⟩ := hc; cases h
  | cons op ops ih =>
    unfold applyOps
    rw [List.foldl_cons]
    by_cases hd : Covers s i op
    · exact applyOps_keep ops ideal s i (fun o ho => h o (List.mem_cons_of_mem _ ho)) _ (applyOp_covers (h op (List.mem_cons_self ..) hd.1) hd)
    · apply ih (fun o ho => h o (List.mem_cons_of_mem _ ho))
      obtain ⟨o, ho, hc⟩ := hc
      rcases List.mem_cons.mp ho with rfl | ho
      · exact (hd hc).elim
      · exact ⟨o, ho, hc⟩

theorem applyOps_other (ops : List (WOp B)) (s : String) (i : Nat) (h : ∀ op ∈ ops, ¬ Covers s i op) (fs : Files B) : applyOps fs ops s i = fs s i := by
  induction ops generalizing fs with
  | nil => rfl
  | cons op ops ih =>
    unfold applyOps
    rw [List.foldl_cons]
    have := ih (fun o ho => h o (List.mem_cons_of_mem _ ho)) (applyOp fs op)
    rw [applyOp_other (h op (List.mem_cons_self ..))] at this
    exact this

/-! ## reading -/

theorem mapM_range {γ : Type} (f : Nat → Option γ) (l : List γ) (h : ∀ j (hj : j < l.length), f j = some l[j]) : (List.range l.length).mapM f = some l := by
  induction l using List.reverseRecOn with
  | nil => rfl
  | append_singleton l v ih =>
    rw [List.length_append, List.length_singleton, List.range_succ, List.mapM_append, ih fun j hj => by
      have := h j (by rw [List.length_append]; omega)
      rwa [List.getElem_append_left hj] at this]
    have := h l.length (by simp)
    simp only [List.getElem_append_right (Nat.le_refl _), Nat.sub_self, List.getElem_cons_zero] at this
    simp [this]

theorem readBytes_of {f : File B} {off : Nat} {bs : List B} (h : BytesAt f off bs) : readBytes f off bs.length = some bs := mapM_range _ _ h

theorem readItem_of {f : File B} {off : Nat} {T : DType B β} {v : β} (h : BytesAt f off (T.enc v)) (hv : Stores T v) : readItem f T off = some v := by
  unfold readItem
  rw [← hv.len, readBytes_of h, Option.map_some, hv.back]

theorem readItems_of {f : File B} {off : Nat} {T : DType B β} {vs : List β} (h : ∀ i (hi : i < vs.length), BytesAt f (off + i * T.size) (T.enc vs[i]))
    (hv : ∀ v ∈ vs, Stores T v) : readItems f T off vs.length = some vs :=
  mapM_range _ _ fun i hi => readItem_of (h i hi) (hv _ (List.getElem_mem hi))

/-! ## arrays of items -/

theorem flatMap_length (enc : β → List B) (sz : Nat) (vs : List β) (h : ∀ v ∈ vs, (enc v).length = sz) : (vs.flatMap enc).length = vs.length * sz := by
  induction vs with
  | nil => simp
  | cons v vs ih =>
    rw [List.flatMap_cons, List.length_append, ih fun v hv => h v (List.mem_cons_of_mem _ hv), h v (List.mem_cons_self ..), List.length_cons]
    ring

theorem flatMap_get (enc : β → List B) (sz : Nat) (vs : List β) (h : ∀ v ∈ vs, (enc v).length = sz) (i : Nat) (hi : i < vs.length) (r : Nat) (hr : r < sz) :
    (vs.flatMap enc)[i * sz + r]? = (enc vs[i])[r]? := by
  induction vs generalizing i with
  | nil => simp at hi
  | cons v vs ih =>
    have hl := h v (List.mem_cons_self ..)
    rw [List.flatMap_cons]
    cases i with
    | zero => rw [List.getElem?_append_left (by omega), Nat.zero_mul, Nat.zero_add]; rfl
    | succ i =>
      have e : (i + 1) * sz + r - (enc v).length = i * sz + r := by rw [hl, Nat.add_mul]; omega
      rw [List.getElem?_append_right (by rw [hl, Nat.add_mul]; omega), e]
      exact ih (fun v hv => h v (List.mem_cons_of_mem _ hv)) i (by simpa using hi)

theorem bytesAt_items {f : File B} {off : Nat} {enc : β → List B} {sz : Nat} {vs : List β} (hl : ∀ v ∈ vs, (enc v).length = sz)
    (h : BytesAt f off (vs.flatMap enc)) (i : Nat) (hi : i < vs.length) : BytesAt f (off + i * sz) (enc vs[i]) := by
  intro j hj
  have hs := hl _ (List.getElem_mem hi)
  have hlen := flatMap_length enc sz vs hl
  have hb : i * sz + j < (vs.flatMap enc).length := by
    rw [hlen]
    calc i * sz + j < i * sz + sz := by omega
      _ = (i + 1) * sz := by ring
      _ ≤ vs.length * sz := Nat.mul_le_mul_right _ hi
  have := h (i * sz + j) hb
  rw [Nat.add_assoc, this, ← List.getElem?_eq_getElem hb, flatMap_get enc sz vs hl i hi j (by omega), List.getElem?_eq_getElem hj]

/-! ## file names -/

theorem ofDigitChars_zeros (m : Nat) (l : List Char) : Nat.ofDigitChars 10 (List.replicate m '0' ++ l) 0 = Nat.ofDigitChars 10 l 0 := by
  induction m with
  | zero => rfl
  | succ m ih => rw [List.replicate_succ, List.cons_append, Nat.ofDigitChars_cons]; simpa using ih

theorem padded_inj (w a b : Nat) (h : padded w (toString a) = padded w (toString b)) : a = b := by
  have key : ∀ a : Nat, Nat.ofDigitChars 10 (padded w (toString a)).toList 0 = a := by
    intro a
    unfold padded
    rw [String.toList_append, String.toList_ofList, ofDigitChars_zeros, show toString a = a.repr from rfl, Nat.toList_repr, Nat.ofDigitChars_ten_toDigits]
  rw [← key a, h, key b]

theorem mpiioName_inj (pre : String) (a b : Nat) (h : mpiioName pre a = mpiioName pre b) : a = b := by
  unfold mpiioName at h
  rw [String.append_left_inj, String.append_right_inj] at h
  exact padded_inj 5 a b h

theorem bovName_inj (pre : String) (a b : Nat) (suffix : String) (h : bovName pre a suffix = bovName pre b suffix) : a = b := by
  unfold bovName at h
  rw [String.append_left_inj, String.append_left_inj, String.append_right_inj] at h
  exact padded_inj 5 a b h

/-! ## streaks -/

theorem coordsFrom_get (s : Streak) (m : Nat) (x : Int) (i : Nat) (h : i < (coordsFrom s m x).length) : (coordsFrom s m x)[i] = upd s.origin 0 (x + i) := by
  induction m generalizing x i with
  | zero => simp [coordsFrom] at h
  | succ m ih =>
    cases i with
    | zero => simp [coordsFrom]
    | succ i =>
      simp only [coordsFrom, List.getElem_cons_succ]
      rw [ih]
      congr 1
      push_cast
      ring

theorem coordsOf_get (s : Streak) (i : Nat) (h : i < (coordsOf s).length) : (coordsOf s)[i] = upd s.origin 0 (s.origin 0 + i) := coordsFrom_get s _ _ i h

theorem mapM_some {γ δ : Type} (f : γ → Option δ) (l : List γ) (h : ∀ a ∈ l, ∃ b, f a = some b) : ∃ r, l.mapM f = some r ∧ ∀ b, b ∈ r ↔ ∃ a ∈ l, f a = some b := by
  induction l with
  | nil => exact ⟨[], rfl, fun b => by simp⟩
  | cons a l ih =>
    obtain ⟨b, hb⟩ := h a (List.mem_cons_self ..)
    obtain ⟨r, e, hr⟩ := ih fun a ha => h a (List.mem_cons_of_mem _ ha)
    refine ⟨b :: r, by simp [List.mapM_cons, hb, e], fun c => ?_⟩
    rw [List.mem_cons, hr]
    constructor
    · rintro (rfl | ⟨a', h1, h2⟩)
      · exact ⟨a, List.mem_cons_self .., hb⟩
      · exact ⟨a', List.mem_cons_of_mem _ h1, h2⟩
    · rintro ⟨a', h1, h2⟩
      rcases List.mem_cons.mp h1 with rfl | h1
      · rw [hb] at h2; exact Or.inl (Option.some.inj h2).symm
      · exact Or.inr ⟨a', h1, h2⟩

end LGD.IO
