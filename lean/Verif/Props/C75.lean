import Verif.Store.SoaVectorModel
import Verif.Ieee.RoundLemmas
import Mathlib.Data.List.Basic
import Mathlib.Tactic.Linarith

/-!
# C75: `soa_vector` behaves like `std::vector`

For extents in ascending order, none below 6 and none above 2^52, every history of calls which `std::vector` allows leaves the elements `std::vector` would hold (or `std::out_of_range` was thrown because no extent is
large enough) provided that `reserve` is not asked for less than the size and that `resize` doesn't enlarge a vector which was shrunk. Without these the calls differ from `std::vector`: a
reservation below the size may write outside of the memory, elements reappear, and copies lose all elements beyond the dimension.
-/

namespace LGD.SoaVec
open LGD.Ieee

variable {α : Type}

/-- a `std::vector` and whether it has been shrunk by `clear()` or `resize()` since the last reallocation -/
structure Spec (α : Type) where
  xs : List α
  clean : Bool

/-- the effect of a call on `std::vector`; `none`: not covered -/
def Spec.step (dflt : α) (s : Spec α) : Op α → Option (Spec α)
  | .set i x => if i < s.xs.length then some ⟨s.xs.set i x, s.clean⟩ else none
  | .pushBack x => some ⟨s.xs ++ [x], s.clean⟩
  | .popBack => if s.xs = [] then none else some ⟨s.xs.dropLast, s.clean⟩
  | .resize n => if n < s.xs.length then some ⟨s.xs.take n, false⟩ else if n = s.xs.length ∨ s.clean then some ⟨s.xs ++ List.replicate (n - s.xs.length) dflt, s.clean⟩ else none
  | .reserve n => if s.xs.length ≤ n then some s else none
  | .clear => some ⟨[], false⟩

def Spec.run (dflt : α) : List (Op α) → Spec α → Option (Spec α)
  | [], s => some s
  | o :: os, s => (s.step dflt o).bind (Spec.run dflt os)

/-- the vector holds the elements of the specification -/
structure Holds (sizes : List Nat) (dflt : α) (v : Vec α) (s : Spec α) : Prop where
  count : v.count = s.xs.length
  bound : v.count ≤ v.mem.length
  elems : v.mem.take v.count = s.xs
  ext : v.ext = some v.mem.length
  sel : sel sizes v.dim = .ok v.mem.length
  clean : s.clean = true → ∀ i, v.count ≤ i → i < v.dim → v.mem[i]? = some dflt

theorem sel_ok {sizes : List Nat} {n e : Nat} (h : sel sizes n = .ok e) : n ≤ e ∧ ∃ as bs, sizes = as ++ e :: bs ∧ ∀ s ∈ as, s < n := by
  unfold sel at h
  split at h
  · rename_i e' h'
    injection h with h; subst h
    rw [List.find?_eq_some_iff_append] at h'
    obtain ⟨h1, as, bs, h2, h3⟩ := h'
    refine ⟨of_decide_eq_true h1, as, bs, h2, fun s hs => ?_⟩
    have := h3 s hs
    simpa using this
  · cases h

theorem sel_cases (sizes : List Nat) (n : Nat) : (∃ e, sel sizes n = .ok e) ∨ sel sizes n = .error .outOfRange := by
  unfold sel
  split
  · exact .inl ⟨_, rfl⟩
  · exact .inr rfl

theorem sel_idem {sizes : List Nat} {n e : Nat} (h : sel sizes n = .ok e) : sel sizes e = .ok e := by
  obtain ⟨h1, as, bs, h2, h3⟩ := sel_ok h
  have : sizes.find? (fun s => decide (e ≤ s)) = some e := by
    rw [List.find?_eq_some_iff_append]
    exact ⟨by simp, as, bs, h2, fun s hs => by have := h3 s hs; simp; omega⟩
  unfold sel; rw [this]

theorem sel_mono {sizes : List Nat} (hs : sizes.Pairwise (· < ·)) {m n d e : Nat} (h : m ≤ n) (hm : sel sizes m = .ok d) (hn : sel sizes n = .ok e) : d ≤ e := by
  obtain ⟨_, as, bs, h2, h3⟩ := sel_ok hm
  obtain ⟨h4, cs, ds, h5, _⟩ := sel_ok hn
  have he : e ∈ as ++ d :: bs := by rw [← h2, h5]; simp
  rw [h2, List.pairwise_append, List.pairwise_cons] at hs
  simp only [List.mem_append, List.mem_cons] at he
  rcases he with he | he | he
  · have := h3 e he; omega
  · omega
  · exact le_of_lt (hs.2.1.1 e he)

/-- the memory requested by `push_back` is larger than the present one -/
theorem grow_gt {c : Nat} (h1 : 6 ≤ c) (h2 : c ≤ 2 ^ 52) : c < grow c := by
  have hc : rnd (c : ℚ) = c := by
    have : Double ((c : ℤ) : ℚ) := double_int (by rw [abs_of_nonneg (by omega)]; exact_mod_cast h2.trans (by norm_num))
    simpa using rnd_double this
  have h6 : (119 : ℚ) / 100 ≤ rnd (6 / 5) := by decide +kernel
  have hle : ((c + 1 : ℤ) : ℚ) ≤ rnd (rnd (c : ℚ) * rnd (6 / 5)) := by
    refine le_rnd_of_le (double_int (by rw [abs_of_nonneg (by omega)]; have : (c : ℤ) ≤ 2 ^ 52 := by exact_mod_cast h2
                                        linarith [show (2 : ℤ) ^ 53 = 2 * 2 ^ 52 by norm_num, show (1 : ℤ) ≤ 2 ^ 52 by norm_num])) ?_
    rw [hc]
    have h1' : (6 : ℚ) ≤ c := by exact_mod_cast h1
    push_cast
    nlinarith
  have := Int.le_floor.mpr hle
  unfold grow
  omega

theorem reserve_holds {sizes : List Nat} {dflt junk : α} {v : Vec α} {s : Spec α} (h : Holds sizes dflt v s) {n : Nat} (hn : ∀ e, sel sizes n = .ok e → v.count ≤ e) :
    (∃ v', reserve sizes dflt junk v n = .ok v' ∧ Holds sizes dflt v' ⟨s.xs, true⟩ ∧ v'.count = v.count ∧ sel sizes n = .ok v'.mem.length ∧ v'.dim = v'.mem.length) ∨
      reserve sizes dflt junk v n = .error .outOfRange := by
  rcases sel_cases sizes n with ⟨e, he⟩ | he
  · left
    have hi := sel_idem he
    have hle := hn e he
    have hlen : (v.mem.take v.count ++ List.replicate (e - v.count) dflt ++ List.replicate (e - max e v.count) junk).length = e := by
      have := h.bound
      simp only [List.length_append, List.length_take, List.length_replicate]; omega
    refine ⟨⟨v.mem.take v.count ++ List.replicate (e - v.count) dflt ++ List.replicate (e - max e v.count) junk, some e, e, v.count⟩, ?_, ⟨h.count, ?_, ?_, ?_, ?_, ?_⟩, rfl, ?_, ?_⟩
    · unfold reserve; rw [he]; simp only [Except.bind]; rw [hi]; simp only [h.ext, hle, h.bound, and_self, if_true]
    · simp only [hlen]; exact hle
    · simp only
      rw [List.append_assoc, List.take_append_of_le_length (by rw [List.length_take]; have := h.bound; omega), List.take_take, Nat.min_self, h.elems]
    · simp only [hlen]
    · simp only [hlen]; exact hi
    · intro _ i h1 h2
      simp only at h1 h2 ⊢
      have := h.bound
      rw [List.append_assoc, List.getElem?_append_right (by rw [List.length_take]; omega), List.getElem?_append_left (by rw [List.length_take, List.length_replicate]; omega), List.getElem?_replicate]
      rw [List.length_take, if_pos (by omega)]
    · simp only [hlen]; exact he
    · simp only [hlen]
  · right
    unfold reserve; rw [he]; rfl

theorem set_holds {sizes : List Nat} {dflt : α} {v : Vec α} {s : Spec α} (h : Holds sizes dflt v s) {i : Nat} (x : α) (hi : i < s.xs.length) :
    ∃ v', set v i x = .ok v' ∧ Holds sizes dflt v' ⟨s.xs.set i x, s.clean⟩ := by
  have hc := h.count
  have hb := h.bound
  refine ⟨{ v with mem := v.mem.set i x }, by unfold set; rw [if_pos (by omega)], ⟨?_, ?_, ?_, ?_, ?_, ?_⟩⟩
  · simp [hc]
  · simpa using hb
  · simp only; rw [List.take_set, h.elems]
  · simpa using h.ext
  · simpa using h.sel
  · intro hcl j h1 h2
    simp only at h1 h2 ⊢
    rw [List.getElem?_set_ne (by omega)]; exact h.clean hcl j h1 h2

theorem append_holds {sizes : List Nat} {dflt : α} {v : Vec α} {s : Spec α} (h : Holds sizes dflt v s) (x : α) (hi : v.count < v.mem.length) :
    ∃ v', set v v.count x = .ok v' ∧ Holds sizes dflt { v' with count := v'.count + 1 } ⟨s.xs ++ [x], s.clean⟩ := by
  have hc := h.count
  refine ⟨{ v with mem := v.mem.set v.count x }, by unfold set; rw [if_pos hi], ⟨?_, ?_, ?_, ?_, ?_, ?_⟩⟩
  · simp [hc]
  · simp only [List.length_set]; omega
  · simp only
    rw [List.take_add_one, List.getElem?_set_self hi, List.take_set_of_le (le_refl _), h.elems]; rfl
  · simpa using h.ext
  · simpa using h.sel
  · intro hcl j h1 h2
    simp only at h1 h2 ⊢
    rw [List.getElem?_set_ne (by omega)]; exact h.clean hcl j (by omega) h2

/-- extents in ascending order for which `push_back` enlarges the memory -/
structure Proper (sizes : List Nat) : Prop where
  sorted : sizes.Pairwise (· < ·)
  range : ∀ s ∈ sizes, 6 ≤ s ∧ s ≤ 2 ^ 52

/-- one call has the effect it has on a `std::vector` -/
theorem C75_step {sizes : List Nat} (hp : Proper sizes) {dflt junk : α} {v : Vec α} {s s' : Spec α} (h : Holds sizes dflt v s) {o : Op α} (ho : s.step dflt o = some s') :
    (∃ v', step sizes dflt junk v o = .ok v' ∧ Holds sizes dflt v' s') ∨ step sizes dflt junk v o = .error .outOfRange := by
  have hc := h.count
  have hb := h.bound
  cases o with
  | set i x =>
    simp only [Spec.step] at ho
    split at ho
    · rename_i hi; injection ho with ho; subst ho
      exact .inl (set_holds h x hi)
    · cases ho
  | pushBack x =>
    simp only [Spec.step] at ho
    injection ho with ho; subst ho
    simp only [step, pushBack, h.ext]
    split
    · rename_i hf
      obtain ⟨_, as, bs, h2, _⟩ := sel_ok h.sel
      have hr := hp.range v.mem.length (by rw [h2]; simp)
      have hg : v.count < grow v.count := grow_gt (by omega) (by omega)
      rcases reserve_holds (junk := junk) h (n := grow v.count) (fun e he => by have := (sel_ok he).1; omega) with ⟨v', h3, h4, h5, h6, _⟩ | h3
      · rw [h3]; simp only [Except.bind]
        have := (sel_ok h6).1
        obtain ⟨v'', h7, h8⟩ := append_holds h4 x (by omega)
        rw [h7]
        refine .inl ⟨_, rfl, h8.count, h8.bound, h8.elems, h8.ext, h8.sel, fun _ => h8.clean rfl⟩
      · rw [h3]; exact .inr rfl
    · rename_i hf
      simp only [Except.bind]
      obtain ⟨v'', h7, h8⟩ := append_holds h x (by omega)
      rw [h7]
      exact .inl ⟨_, rfl, h8⟩
  | popBack =>
    simp only [Spec.step] at ho
    split at ho
    · cases ho
    · rename_i hne; injection ho with ho; subst ho
      have hpos : v.count ≠ 0 := by rw [hc]; simpa using hne
      simp only [step, popBack, if_neg hpos]
      left
      refine ⟨{ v with mem := v.mem.set (v.count - 1) dflt, count := v.count - 1 }, by unfold set; rw [if_pos (show v.count - 1 < v.mem.length by omega)], ⟨?_, ?_, ?_, ?_, ?_, ?_⟩⟩
      · simp [hc]
      · simp only [List.length_set]; omega
      · simp only
        rw [List.take_set_of_le (le_refl _), List.dropLast_eq_take, ← h.elems, List.take_take, List.length_take]; congr 1; omega
      · simpa using h.ext
      · simpa using h.sel
      · intro hcl j h1 h2
        simp only at h1 h2 ⊢
        by_cases hj : v.count - 1 = j
        · subst hj; rw [List.getElem?_set_self (by omega)]
        · rw [List.getElem?_set_ne hj]; exact h.clean hcl j (by omega) h2
  | resize n =>
    -- enlarging within the dimension or after a reallocation
    have key : ∀ w : Vec α, Holds sizes dflt w s → n ≤ w.dim → s.xs.length ≤ n → (n = s.xs.length ∨ s.clean = true) → Holds sizes dflt { w with count := n } ⟨s.xs ++ List.replicate (n - s.xs.length) dflt, s.clean⟩ := by
      intro w hw hd hn hcl
      have hwc := hw.count
      have hwb := hw.bound
      have hdl := (sel_ok hw.sel).1
      refine ⟨by simp; omega, by simp only; omega, ?_, hw.ext, hw.sel, fun hcl j h1 h2 => hw.clean hcl j (by simp only at h1; omega) h2⟩
      simp only
      refine List.ext_getElem? fun j => ?_
      by_cases hj : j < s.xs.length
      · rw [List.getElem?_append_left hj, List.getElem?_take_of_lt (by omega), ← hw.elems, List.getElem?_take_of_lt (by omega)]
      · by_cases hj2 : j < n
        · rw [List.getElem?_append_right (by omega), List.getElem?_replicate, if_pos (by omega), List.getElem?_take_of_lt hj2]
          exact hw.clean (by rcases hcl with hcl | hcl <;> [omega; exact hcl]) j (by omega) (by omega)
        · rw [List.getElem?_eq_none (by simp; omega), List.getElem?_eq_none (by simp; omega)]
    simp only [Spec.step] at ho
    simp only [step, resize]
    have hcap : capacity v = v.dim := rfl
    by_cases hd : capacity v < n
    · rw [if_pos hd]; rw [hcap] at hd
      rcases reserve_holds (junk := junk) h (n := n) (fun e he => by have := sel_mono hp.sorted (le_of_lt hd) h.sel he; omega) with ⟨v', h3, h4, h5, h6, h7⟩ | h3
      · rw [h3]; simp only [Except.bind]
        have hnl := (sel_ok h6).1
        split at ho
        · rename_i hn; injection ho with ho; subst ho
          refine .inl ⟨_, rfl, by simp; omega, by simp only; omega, ?_, h4.ext, h4.sel, (by simp)⟩
          have := h4.elems
          simp only at this ⊢
          rw [← this, List.take_take]; congr 1; omega
        · split at ho
          · rename_i hn hcl; injection ho with ho; subst ho
            refine .inl ⟨_, rfl, ?_⟩
            exact key v' ⟨h4.count, h4.bound, h4.elems, h4.ext, h4.sel, fun _ => h4.clean rfl⟩ (by omega) (by omega) hcl
          · cases ho
      · rw [h3]; exact .inr rfl
    · rw [if_neg hd]; rw [hcap] at hd
      simp only [Except.bind]
      split at ho
      · rename_i hn; injection ho with ho; subst ho
        refine .inl ⟨_, rfl, by simp; omega, by simp only; omega, ?_, h.ext, h.sel, (by simp)⟩
        simp only
        rw [← h.elems, List.take_take]; congr 1; omega
      · split at ho
        · rename_i hn hcl; injection ho with ho; subst ho
          exact .inl ⟨_, rfl, key v h (by omega) (by omega) hcl⟩
        · cases ho
  | reserve n =>
    simp only [Spec.step] at ho
    split at ho
    · rename_i hn; injection ho with ho; subst ho
      simp only [step]
      rcases reserve_holds (junk := junk) h (n := n) (fun e he => by have := (sel_ok he).1; omega) with ⟨v', h3, h4, _⟩ | h3
      · exact .inl ⟨v', h3, h4.count, h4.bound, h4.elems, h4.ext, h4.sel, fun _ => h4.clean rfl⟩
      · exact .inr h3
    · cases ho
  | clear =>
    simp only [Spec.step] at ho
    injection ho with ho; subst ho
    exact .inl ⟨clear v, rfl, rfl, Nat.zero_le _, by simp [clear], h.ext, h.sel, (by simp)⟩

/-- every history of calls has the effect it has on a `std::vector`, unless `std::out_of_range` is thrown -/
theorem C75_history {sizes : List Nat} (hp : Proper sizes) {dflt junk : α} : ∀ (os : List (Op α)) {v : Vec α} {s s' : Spec α}, Holds sizes dflt v s → Spec.run dflt os s = some s' →
    (∃ v', run sizes dflt junk os v = .ok v' ∧ Holds sizes dflt v' s') ∨ run sizes dflt junk os v = .error .outOfRange
  | [], v, s, s', h, hr => by
    simp only [Spec.run, Option.some.injEq] at hr; subst hr
    exact .inl ⟨v, rfl, h⟩
  | o :: os, v, s, s', h, hr => by
    simp only [Spec.run, Option.bind_eq_some_iff] at hr
    obtain ⟨s1, h1, h2⟩ := hr
    simp only [run]
    rcases C75_step hp (junk := junk) h h1 with ⟨v1, h3, h4⟩ | h3
    · rw [h3]; exact C75_history hp os h4 h2
    · rw [h3]; exact .inr rfl

theorem replicate_holds {sizes : List Nat} {dflt junk x : α} {n e : Nat} (h : sel sizes n = .ok e) : Holds sizes dflt ⟨List.replicate n x ++ List.replicate (e - n) junk, some e, n, n⟩ ⟨List.replicate n x, true⟩ := by
  have hn := (sel_ok h).1
  have hlen : (List.replicate n x ++ List.replicate (e - n) junk).length = e := by simp; omega
  exact ⟨by simp, by simp, by simp, by rw [hlen], by simp only [hlen]; exact h, fun _ i h1 h2 => absurd h1 (by simp only at h2 ⊢; omega)⟩

/-- the constructors make vectors of `n` default constructed elements, or of `n` copies -/
theorem C75_make {sizes : List Nat} {dflt junk : α} (n : Nat) :
    (∃ v, make sizes dflt junk n = .ok v ∧ Holds sizes dflt v ⟨List.replicate n dflt, true⟩) ∨ make sizes dflt junk n = .error .outOfRange := by
  rcases sel_cases sizes n with ⟨e, he⟩ | he
  · exact .inl ⟨_, by unfold make; rw [he]; rfl, replicate_holds he⟩
  · exact .inr (by unfold make; rw [he]; rfl)

theorem C75_makeValue {sizes : List Nat} {dflt junk : α} (n : Nat) (x : α) :
    (∃ v, makeValue sizes junk n x = .ok v ∧ Holds sizes dflt v ⟨List.replicate n x, true⟩) ∨ makeValue sizes junk n x = .error .outOfRange := by
  rcases sel_cases sizes n with ⟨e, he⟩ | he
  · exact .inl ⟨_, by unfold makeValue; rw [he]; rfl, replicate_holds he⟩
  · exact .inr (by unfold makeValue; rw [he]; rfl)

/-- `get` returns the elements of the specification -/
theorem C75_get {sizes : List Nat} {dflt : α} {v : Vec α} {s : Spec α} (h : Holds sizes dflt v s) {i : Nat} (hi : i < s.xs.length) : get v i = .ok s.xs[i] := by
  have h1 : s.xs[i]? = v.mem[i]? := by rw [← h.elems, List.getElem?_take_of_lt (by rw [h.count]; exact hi)]
  rw [List.getElem?_eq_getElem hi] at h1
  unfold get; rw [← h1]

/-- a size within the largest extent is not refused -/
theorem C75_room {sizes : List Nat} {m n : Nat} (hm : m ∈ sizes) (hn : n ≤ m) : ∃ e, sel sizes n = .ok e := by
  rcases sel_cases sizes n with h | h
  · exact h
  · unfold sel at h
    split at h
    · cases h
    · rename_i hf
      rw [List.find?_eq_none] at hf
      exact absurd hn (by simpa using hf m hm)

/-- the extents of LibFlatArray for one dimension are suitable -/
theorem C75_default : Proper default1d := by
  refine ⟨by decide +kernel, by decide +kernel⟩

/-- assignment copies the elements if the size doesn't exceed the dimension -/
theorem C75_assign {sizes : List Nat} {dflt junk : α} {w v : Vec α} {s t : Spec α} (hw : Holds sizes dflt w t) (h : Holds sizes dflt v s) (hd : v.count ≤ v.dim) :
    ∃ w', assign sizes dflt junk w v = .ok w' ∧ Holds sizes dflt w' s := by
  have fin : ∀ u : Vec α, u.dim = v.dim → u.mem.length = v.mem.length → u.ext = some v.mem.length → Holds sizes dflt ⟨v.mem.take v.dim ++ u.mem.drop v.dim, u.ext, u.dim, v.count⟩ s := by
    intro u h1 h2 h3
    have hl := (sel_ok h.sel).1
    have hlen : (v.mem.take v.dim ++ u.mem.drop v.dim).length = v.mem.length := by simp; omega
    refine ⟨h.count, by simp only [hlen]; exact h.bound, ?_, by simp only [hlen]; exact h3, by simp only [hlen, h1]; exact h.sel, ?_⟩
    · simp only
      rw [List.take_append_of_le_length (by rw [List.length_take]; omega), List.take_take, Nat.min_eq_left hd, h.elems]
    · intro hcl i h4 h5
      simp only at h4 h5 ⊢
      rw [List.getElem?_append_left (by rw [List.length_take]; omega), List.getElem?_take_of_lt (by omega)]
      exact h.clean hcl i h4 (by omega)
  unfold assign
  split
  · rename_i hdim
    have hs := hw.sel
    rw [hdim, h.sel] at hs
    injection hs with hs
    exact ⟨_, rfl, fin w hdim hs.symm (by rw [hw.ext, hs])⟩
  · rw [h.sel]
    have hl := (sel_ok h.sel).1
    exact ⟨_, rfl, fin ⟨List.replicate v.dim dflt ++ List.replicate (v.mem.length - v.dim) junk, some v.mem.length, v.dim, w.count⟩ rfl (by simp; omega) rfl⟩

/-- copies hold none of the elements beyond the dimension -/
theorem C75_copy_lost {v : Vec α} (junk : α) {i : Nat} (h1 : v.dim ≤ i) (h2 : i < v.mem.length) : get (copy junk v) i = .ok junk := by
  unfold get copy
  simp only
  rw [List.getElem?_append_right (by rw [List.length_take]; omega), List.getElem?_replicate, if_pos (by rw [List.length_take]; omega)]

/-- after the copy constructor `push_back` and `reserve` depend on an uninitialised extent -/
theorem C75_copy_push {sizes : List Nat} {dflt junk : α} (v : Vec α) (x : α) : pushBack sizes dflt junk (copy junk v) x = .error .undefined := rfl

/-- `reserve` below the size is no request which is ignored: it writes outside of the memory if the extent is smaller than the size -/
theorem C75_reserve_undefined {sizes : List Nat} {dflt junk : α} {v : Vec α} {s : Spec α} (h : Holds sizes dflt v s) {n e : Nat} (he : sel sizes n = .ok e) (hlt : e < s.xs.length) :
    reserve sizes dflt junk v n = .error .undefined := by
  have hc := h.count
  unfold reserve; rw [he]; simp only [Except.bind]; rw [sel_idem he]; simp only [h.ext]
  rw [if_neg (by omega)]

/-- with extents up to 4 `push_back` on a full vector writes outside of the memory: the memory isn't enlarged -/
theorem C75_small_extent {sizes : List Nat} {dflt junk : α} {v : Vec α} {s : Spec α} (h : Holds sizes dflt v s) (hfull : s.xs.length = v.mem.length) (h4 : v.mem.length ≤ 4) (x : α) :
    pushBack sizes dflt junk v x = .error .undefined := by
  have hc := h.count
  have hg : ∀ c ∈ List.range 5, grow c = c := by decide +kernel
  have hsel : sel sizes v.count = .ok v.mem.length := by rw [hc, hfull]; exact sel_idem h.sel
  unfold pushBack
  simp only [h.ext]
  rw [if_pos (by omega), hg v.count (by simp; omega)]
  unfold reserve
  rw [hsel]; simp only [Except.bind]; rw [sel_idem h.sel]; simp only [h.ext]
  rw [if_pos (by omega)]
  simp only
  unfold set
  rw [if_neg (by simp; omega)]

/-- elements reappear when a vector is enlarged after `clear()` -/
theorem C75_reappear {sizes : List Nat} {dflt junk : α} {v : Vec α} {s : Spec α} (h : Holds sizes dflt v s) (hd : s.xs.length ≤ v.dim) :
    ∃ v', run sizes dflt junk [.clear, .resize s.xs.length] v = .ok v' ∧ v'.mem.take v'.count = s.xs := by
  refine ⟨{ v with count := s.xs.length }, ?_, by simp only; rw [← h.count]; exact h.elems⟩
  have hc : ¬capacity (clear v) < s.xs.length := by show ¬v.dim < _; omega
  simp only [run, step, resize, Except.bind]
  rw [if_neg hc]; rfl

/-- a vector, default constructed and filled with up to 32 elements, reports the capacity 0; so `capacity()` may be less than `size()` -/
theorem C75_capacity : ∃ v, (make default1d 0 9 0).bind (run default1d 0 9 [.pushBack 5, .pushBack 6, .pushBack 7]) = .ok v ∧ capacity v = 0 ∧ v.count = 3 ∧ get v 2 = .ok 7 ∧ get (copy 9 v) 2 = .ok 9 :=
  ⟨⟨[5, 6, 7] ++ List.replicate 29 9, some 32, 0, 3⟩, by decide +kernel, rfl, rfl, by decide +kernel, by decide +kernel⟩

/-! ## Examples -/

/-- 33 elements: memory is enlarged from 32 to 64 elements -/
example : ∃ v, (makeValue default1d 9 32 4).bind (run default1d 0 9 [.pushBack 5, .popBack, .pushBack 6, .set 0 8]) = .ok v ∧ v.mem.length = 64 ∧ v.count = 33 ∧ get v 0 = .ok 8 ∧ get v 32 = .ok 6 ∧ get v 31 = .ok 4 :=
  ⟨⟨8 :: List.replicate 31 4 ++ [6] ++ List.replicate 31 0, some 64, 64, 33⟩, by decide +kernel, by decide +kernel, rfl, by decide +kernel, by decide +kernel, by decide +kernel⟩

example : Spec.run 0 [.pushBack 5, .resize 3, .popBack, .reserve 100, .set 1 7] ⟨[], true⟩ = some ⟨[5, 7], true⟩ := by simp [Spec.run, Spec.step, List.replicate]

example : sel default1d 2000000000 = .error .outOfRange := by decide +kernel

example : grow 32 = 38 ∧ grow 4 = 4 ∧ grow 5 = 6 := by decide +kernel

/-- 40 elements, `reserve(10)` -/
example : (makeValue default1d 9 40 4).bind (fun v => reserve default1d 0 9 v 10) = .error .undefined := by decide +kernel

end LGD.SoaVec
