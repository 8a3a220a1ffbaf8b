import Verif.Image.ImageLemmas

/-!
# Reading PPM files

`readPPM` follows the definition of the format, not the writer: magic number, width, height and largest value in decimal, separated by white space, one white space, and then the
pixels in rows from top to bottom.
-/

namespace LGD.Image

/-- value of decimal digits -/
def val (l : List Nat) : Nat := l.foldl (fun a d => a * 10 + (d - 48)) 0

def isDigit (b : Nat) : Bool := 48 ≤ b && b ≤ 57

def isSpace (b : Nat) : Bool := b == 32 || (9 ≤ b && b ≤ 13)

/-- reads one number after any white space -/
def readNum (l : List Nat) : Option (Nat × List Nat) :=
  let l := l.dropWhile isSpace
  let ds := l.takeWhile isDigit
  if ds = [] then none else some (val ds, l.dropWhile isDigit)

/-- groups of three -/
def triples : List Nat → Option (List (Nat × Nat × Nat))
  | [] => some []
  | r :: g :: b :: l => (triples l).map ((r, g, b) :: ·)
  | _ => none

/-- a reader of the PPM format with one byte per channel: width, height and the pixels in reading order -/
def readPPM (f : List Nat) : Option (Nat × Nat × List (Nat × Nat × Nat)) := do
  let rest ← match f with
    | 80 :: 54 :: c :: l => if isSpace c then some (c :: l) else none
    | _ => none
  let (w, l1) ← readNum rest
  let (h, l2) ← readNum l1
  let (m, l3) ← readNum l2
  match l3 with
  | c :: body =>
    if isSpace c ∧ m = 255 then do
      let ps ← triples body
      if ps.length = w * h then some (w, h, ps) else none
    else none
  | [] => none

/-! ## Numbers -/

theorem dec_digits (n : Nat) : ∀ b ∈ dec n, isDigit b = true := by
  induction n using Nat.strongRecOn with
  | _ n ih =>
    rw [dec]
    split
    · intro b hb
      simp only [List.mem_singleton] at hb
      subst hb
      simp only [isDigit, Bool.and_eq_true, decide_eq_true_eq]
      omega
    · intro b hb
      rcases List.mem_append.1 hb with h | h
      · exact ih _ (by omega) b h
      · simp only [List.mem_singleton] at h
        subst h
        simp only [isDigit, Bool.and_eq_true, decide_eq_true_eq]
        omega

theorem dec_ne_nil (n : Nat) : dec n ≠ [] := by
  rw [dec]
  split <;> simp

theorem val_append_single (l : List Nat) (d : Nat) : val (l ++ [d]) = val l * 10 + (d - 48) := by
  simp [val]

theorem val_dec (n : Nat) : val (dec n) = n := by
  induction n using Nat.strongRecOn with
  | _ n ih =>
    rw [dec]
    split
    · simp [val]
    · rw [val_append_single, ih _ (by omega)]
      omega

theorem val_zeros (k : Nat) (l : List Nat) : val (List.replicate k 48 ++ l) = val l := by
  unfold val
  rw [List.foldl_append]
  congr 1
  induction k with
  | zero => rfl
  | succ k ih => simpa [List.replicate_succ] using ih

theorem takeWhile_stop {p : Nat → Bool} (l : List Nat) (c : Nat) (r : List Nat) (hl : ∀ b ∈ l, p b = true) (hc : p c = false) :
    (l ++ c :: r).takeWhile p = l ∧ (l ++ c :: r).dropWhile p = c :: r := by
  induction l with
  | nil => simp [hc]
  | cons a l ih =>
    have ha := hl a (by simp)
    obtain ⟨h1, h2⟩ := ih (fun b hb => hl b (by simp [hb]))
    simp only [List.cons_append, List.takeWhile_cons, List.dropWhile_cons, ha, if_true, h1, h2]
    exact ⟨trivial, trivial⟩

/-- a number between white space is read back -/
theorem readNum_dec (n : Nat) (c : Nat) (r : List Nat) (hc : isSpace c = true) : readNum (32 :: (dec n ++ c :: r)) = some (n, c :: r) := by
  have hcd : isDigit c = false := by
    simp only [isSpace, isDigit, Bool.or_eq_true, beq_iff_eq, Bool.and_eq_true, decide_eq_true_eq, Bool.and_eq_false_iff, decide_eq_false_iff_not] at hc ⊢
    omega
  obtain ⟨h1, h2⟩ := takeWhile_stop (dec n) c r (dec_digits n) hcd
  have h0 : (32 :: (dec n ++ c :: r)).dropWhile isSpace = dec n ++ c :: r := by
    rw [List.dropWhile_cons_of_pos (by decide)]
    cases hd : dec n with
    | nil => exact absurd hd (dec_ne_nil n)
    | cons a l =>
      have ha := dec_digits n a (by rw [hd]; simp)
      have : isSpace a = false := by
        simp only [isSpace, isDigit, Bool.or_eq_false_iff, beq_eq_false_iff_ne, Bool.and_eq_true, decide_eq_true_eq, Bool.and_eq_false_iff, decide_eq_false_iff_not] at ha ⊢
        omega
      rw [List.cons_append, List.dropWhile_cons_of_neg (by simp [this])]
  unfold readNum
  simp only [h0, h1, h2, val_dec]
  rw [if_neg (dec_ne_nil n)]

/-! ## The body -/

/-- the pixels of an image in reading order -/
def rows (i : Img) : List (Nat × Nat × Nat) :=
  (List.range i.h.toNat).flatMap fun (y : Nat) => (List.range i.w.toNat).map fun (x : Nat) =>
    (red (i.get x y), green (i.get x y), blue (i.get x y))

def flat (l : List (Nat × Nat × Nat)) : List Nat := l.flatMap fun p => [p.1, p.2.1, p.2.2]

theorem triples_flat (l : List (Nat × Nat × Nat)) : triples (flat l) = some l := by
  induction l with
  | nil => rfl
  | cons p l ih =>
    obtain ⟨a, b, c⟩ := p
    simp only [flat, List.flatMap_cons, List.cons_append, List.nil_append, triples]
    simp only [flat] at ih
    rw [ih]
    rfl

theorem foldl_append_eq {α β : Type} (f : α → List β) (l : List α) (s : List β) : l.foldl (fun s a => s ++ f a) s = s ++ l.flatMap f := by
  induction l generalizing s with
  | nil => simp
  | cons a l ih => rw [List.foldl_cons, ih, List.flatMap_cons, List.append_assoc]

theorem body_eq (i : Img) : loop 0 i.h (fun y out => loop 0 i.w (fun x out => out ++ pixel (i.get x y)) out) [] = flat (rows i) := by
  unfold loop
  simp only [Int.sub_zero, Int.zero_add, foldl_append_eq, List.nil_append]
  unfold flat rows
  rw [List.flatMap_assoc]
  congr 1
  funext y
  rw [List.flatMap_map]
  rfl

theorem rows_length (i : Img) : (rows i).length = i.w.toNat * i.h.toNat := by
  simp [rows, List.length_flatMap, Nat.mul_comm]

theorem flatMap_getElem? {α : Type} (n w : Nat) (f : Nat → Nat → α) {x y : Nat} (hx : x < w) (hy : y < n) :
    ((List.range n).flatMap fun y => (List.range w).map fun x => f x y)[y * w + x]? = some (f x y) := by
  induction n with
  | zero => omega
  | succ n ih =>
    rw [List.range_succ, List.flatMap_append]
    have hlen : ((List.range n).flatMap fun y => (List.range w).map fun x => f x y).length = n * w := by
      simp [List.length_flatMap]
    by_cases h : y < n
    · rw [List.getElem?_append_left]
      · exact ih h
      · rw [hlen]
        calc y * w + x < y * w + w := by omega
          _ = (y + 1) * w := by ring
          _ ≤ n * w := Nat.mul_le_mul_right _ (by omega)
    · have : y = n := by omega
      subst this
      rw [List.getElem?_append_right (by rw [hlen]; omega), hlen]
      simp [hx]

theorem rows_getElem? (i : Img) {x y : Nat} (hx : x < i.w.toNat) (hy : y < i.h.toNat) :
    (rows i)[y * i.w.toNat + x]? = some (red (i.px x y), green (i.px x y), blue (i.px x y)) := by
  unfold rows
  rw [flatMap_getElem? i.h.toNat i.w.toNat (fun x y => (red (i.get x y), green (i.get x y), blue (i.get x y))) hx hy]
  have : i.In x y := by
    refine ⟨?_, ?_, ?_, ?_⟩ <;> omega
  simp only [Img.get, if_pos this]

/-- the file is read back -/
theorem readPPM_ppm (i : Img) : readPPM (ppm i) = some (i.w.toNat, i.h.toNat, rows i) := by
  have h255 : dec 255 = [50, 53, 53] := by decide +kernel
  have hf : ppm i = 80 :: 54 :: 32 :: (dec i.w.toNat ++ 32 :: (dec i.h.toNat ++ 32 :: (dec 255 ++ 10 :: flat (rows i)))) := by
    rw [ppm, body_eq, h255]
    simp
  rw [hf]
  unfold readPPM
  have s32 : isSpace 32 = true := by decide
  have s10 : isSpace 10 = true := by decide
  simp only [s32, s10, if_true, Option.bind_eq_bind, Option.bind_some, readNum_dec _ 32 _ s32, readNum_dec _ 10 _ s10, triples_flat, rows_length, and_self]

end LGD.Image
