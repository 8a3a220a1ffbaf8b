import Verif.Hpx.DataflowInv
import Mathlib.Algebra.BigOperators.Group.Finset.Basic
import Mathlib.Algebra.Order.BigOperators.Group.Finset
import Mathlib.Data.Finset.Max

/-! # The dataflow simulator neither gets stuck nor runs forever -/

namespace LGD.Dataflow.Sim

variable {C M : Type} {P : Sim C M}

theorem more_of_launched {s : St C M} {G : Gh} (hI : P.Inv s G) {i : Int} (hi : i ∈ P.cells)
    {q : Nat} (h : s.setup i q ≠ .idle) : P.more q := by
  obtain ⟨l, hl, hil⟩ := mem_cells.1 hi
  obtain ⟨k, hk⟩ := List.getElem?_of_mem hil
  have hp := (hI.past l hl k i hk q).1 h
  have hok := hI.mainOK l hl
  cases hmn : s.main l with
  | head q' => rw [hmn] at hp hok; exact hok q hp
  | launch q' k' => rw [hmn] at hp hok; simp only [Past] at hp; exact more_mono hok.1 (by omega)
  | sem q' => rw [hmn] at hp hok; exact more_mono hok hp
  | wait q' => rw [hmn] at hp hok; exact hok.2 q hp
  | ret q' => rw [hmn] at hp hok; exact hok.2 q hp

theorem request_sig (s : St C M) (i j : Int) (t : Nat) : (P.request s i j t).sig = s.sig := by
  unfold request bufGet
  split
  · split <;> rfl
  · rfl

theorem bufStore_sig (s : St C M) (m : Msg M) : (bufStore s m).sig = s.sig := by
  unfold bufStore
  split <;> rfl

/-- Unless all localities have returned, something can happen. The continuations of the last chunk
are not needed for that. -/
theorem progress (hv : P.Valid) {s : St C M} {G : Gh} (hI : P.Inv s G) (hb : s.bad = none)
    (hnot : ¬ ∀ l < P.L, ∃ q, s.main l = .ret q) :
    ∃ s', P.Step s s' ∧ ∀ l q, ¬ P.more (q + 1) → s'.sig l q = s.sig l q := by
  by_contra hstuck
  have no : ∀ s', P.Step s s' → s'.sig = s.sig → False := fun s' h1 h2 =>
    hstuck ⟨s', h1, fun l q _ => by rw [h2]⟩
  have hreg : ∀ i ∈ P.cells, s.regd i = (P.nbr i).length := by
    intro i hi
    by_contra hne
    have := hI.reg i
    exact no _ (.construct i hb hi (by omega)) rfl
  have hnet : s.net = [] := by
    cases hn : s.net with
    | nil => rfl
    | cons m b => exact (no _ (.deliver [] b m hb hn) (bufStore_sig _ _)).elim
  have hmain : ∀ l < P.L, (∃ q, s.main l = .sem q) ∨ (∃ q, s.main l = .wait q) ∨
      ∃ q, s.main l = .ret q := by
    intro l hl
    cases hm : s.main l with
    | head q =>
      by_cases hq : P.more q
      · exact (no _ (.enter l q hb hl hm hq) rfl).elim
      · exact (no _ (.leave l q hb hl hm hq) rfl).elim
    | launch q k =>
      have hok := hI.mainOK l hl
      rw [hm] at hok
      rcases Nat.lt_or_ge k (P.own l).length with hk | hk
      · exact (no _ (.launch l q k _ hb hl hm (List.getElem?_eq_getElem hk)) rfl).elim
      · exact (no _ (.attach l q k hb hl hm (le_antisymm hok.2 hk) (hv.ne l hl)) rfl).elim
    | sem q => exact Or.inl ⟨q, rfl⟩
    | wait q => exact Or.inr (Or.inl ⟨q, rfl⟩)
    | ret q => exact Or.inr (Or.inr ⟨q, rfl⟩)
  have hsetup : ∀ i ∈ P.cells, ∀ q, s.setup i q ≠ .idle → s.setup i q = .done := by
    intro i hi q hne
    cases hp : s.setup i q with
    | idle => exact absurd hp hne
    | launched =>
      refine (no _ (.begin i q hb hi hp (hreg i hi) ?_) rfl).elim
      intro _ j hj
      obtain ⟨h1, h2⟩ := hv.sym i hi j hj
      obtain ⟨k, hk⟩ := List.getElem?_of_mem h2
      exact ⟨k, by rw [hreg j h1]; exact (List.getElem?_eq_some_iff.1 hk).1, hk⟩
    | run t k =>
      have hok := hI.setupOK i hi q
      rw [hp] at hok
      rcases Nat.lt_or_ge t (P.endT q) with ht | ht
      · rcases Nat.lt_or_ge k (P.nbr i).length with hk | hk
        · exact (no _ (.get i _ q t k hb hi hp ht (List.getElem?_eq_getElem hk))
            (request_sig _ _ _ _)).elim
        · exact (no _ (.arm i q t k hb hi hp ht (le_antisymm hok.2.2.1 hk)) rfl).elim
      · exact (no _ (.done i q t k hb hi hp ht) rfl).elim
    | done => rfl
  -- a blocked semaphore would be released by the continuation of an earlier chunk
  have hsem : ∀ l < P.L, ∀ q, s.main l = .sem q →
      (∀ p, q = p + 1 → ∀ i ∈ P.own l, P.endT p ≤ G.n i) → False := by
    intro l hl q hm hran
    have hok := hI.mainOK l hl
    rw [hm] at hok
    cases q with
    | zero => exact no _ (.pass l 0 hb hl hm (by simp)) rfl
    | succ p =>
      have hmp : P.more p := more_mono hok (by omega)
      cases hsg : s.sig l p with
      | true =>
        have := hI.sigLow l hl p hsg
        refine no _ (.pass l (p + 1) hb hl hm ?_) rfl
        have : (p + 1) * P.c = p * P.c + P.c := by ring
        omega
      | false =>
        have hlen : 0 < (P.own l).length := List.length_pos_iff.2 (hv.ne l hl)
        have hi0 : (P.own l)[0]? = some (P.own l)[0] := List.getElem?_eq_getElem hlen
        have hmem : (P.own l)[0] ∈ P.own l := List.getElem_mem hlen
        have hcell := own_mem_cells hl hmem
        have hne : s.setup (P.own l)[0] p ≠ .idle := by
          rw [hI.past l hl 0 _ hi0 p, hm]; simp [Past]
        have hpos := chunk_pos hv hmp
        have hcr : P.chunkReady s (P.own l)[0] p := by
          rw [chunkReady_iff hv hmp]
          refine ⟨hsetup _ hcell p hne, (hI.ran _ hcell _).2 ?_⟩
          have := hran p rfl _ hmem
          omega
        refine hstuck ⟨_, .signal l p _ hb hl ?_ hsg hi0 hcr (by simp [hm]), ?_⟩
        · rw [hI.att l hl p, hm]; simp [Att]
        · intro l' q' hq'
          refine put2_ne _ ?_
          rintro ⟨_, rfl⟩
          exact hq' hok
  push Not at hnot
  obtain ⟨l, hl, hlr⟩ := hnot
  obtain ⟨i, hi, hmin⟩ : ∃ i ∈ P.cells, ∀ j ∈ P.cells, G.n i ≤ G.n j := by
    have hne : P.cells.toFinset.Nonempty := by
      obtain ⟨x, hx⟩ := List.exists_mem_of_ne_nil _ (hv.ne l hl)
      exact ⟨x, by simpa using own_mem_cells hl hx⟩
    obtain ⟨i, hi, h⟩ := Finset.exists_min_image _ G.n hne
    exact ⟨i, by simpa using hi, fun j hj => h j (by simpa using hj)⟩
  rcases Nat.lt_or_ge (G.n i) P.T with hlt | hge
  · -- some update is due
    obtain ⟨q, q1, q2⟩ := chunk_exists hv hlt
    have hmq := more_of_chunk q1 q2
    obtain ⟨l', hl', hil⟩ := mem_cells.1 hi
    obtain ⟨k, hk⟩ := List.getElem?_of_mem hil
    by_cases hidle : s.setup i q = .idle
    · have hnp : ¬ Past (s.main l') q k := by
        rw [← hI.past l' hl' k i hk q]; simpa using hidle
      have hok := hI.mainOK l' hl'
      rcases hmain l' hl' with ⟨q', h⟩ | ⟨q', h⟩ | ⟨q', h⟩
      · rw [h] at hnp hok
        refine hsem l' hl' q' h ?_
        rintro p rfl j hj
        simp only [Past, not_le] at hnp
        have h1 := endT_of_more (P := P) (q := p) (more_mono hmq (by omega))
        have h2 : P.startT (p + 1) ≤ P.startT q :=
          Nat.mul_le_mul_right _ (Nat.mul_le_mul_right _ (by omega))
        have := hmin j (own_mem_cells hl' hj)
        omega
      · rw [h] at hnp hok
        simp only [Past, not_lt] at hnp
        exact hok.1 (more_mono hmq hnp)
      · rw [h] at hnp hok
        simp only [Past, not_lt] at hnp
        exact hok.1 (more_mono hmq hnp)
    · have hdone := hsetup i hi q hidle
      have harm : s.armed i (G.n i) = true := by
        rw [hI.armed i hi q _ q1 q2, hdone]; trivial
      have hran : s.ran i (G.n i) = false := by
        rw [← Bool.not_eq_true, hI.ran i hi]; omega
      have hf : ∀ j ∈ P.nbr i, ∃ m, s.fut i j (G.n i) = .ready m := by
        intro j hj
        obtain ⟨k', hk'⟩ := List.getElem?_of_mem hj
        have hg : G.g i j (G.n i) = true := by
          rw [hI.asked i hi k' j hk' q _ q1 q2, hdone]; trivial
        rcases Nat.eq_zero_or_pos (G.n i) with h0 | h0
        · refine ⟨P.dflt, ?_⟩
          rw [h0] at hg ⊢
          rw [hI.futZ i hi j hj, hg]; rfl
        · refine ⟨(P.ref (G.n i)).2 j i, ?_⟩
          have hd : G.d i j (G.n i) = true := by
            by_contra hd
            have := (hI.netIff i hi j hj (G.n i)).2
              ⟨h0, hmin j (hv.sym i hi j hj).1, by simpa using hd⟩
            rw [hnet] at this
            simp at this
          rw [hI.futE i hi j hj _ h0, hg, hd]; rfl
      have hp : P.prevReady s i q (G.n i) := by
        unfold prevReady
        split
        · rename_i ht
          cases q with
          | zero => trivial
          | succ p =>
            have hmp : P.more p := more_mono hmq (by omega)
            simp only
            rw [chunkReady_iff hv hmp]
            have h1 := endT_of_more hmq
            have h2 := chunk_pos hv hmp
            refine ⟨hsetup i hi p ?_, (hI.ran i hi _).2 (by omega)⟩
            rw [hI.past l' hl' k i hk p]
            have := (hI.past l' hl' k i hk (p + 1)).1 hidle
            cases hm : s.main l' <;> rw [hm] at this <;> simp only [Past] at this ⊢ <;> omega
        · rename_i ht
          exact (hI.ran i hi _).2 (by omega)
      by_cases hs : ∀ p ∈ (P.result s i (G.n i)).2, p.1 ∈ P.nbr i
      · exact no _ (.update i q _ hb hi ⟨q1, q2⟩ harm hran hf hp hs) rfl
      · exact no _ (.updateThrows i q _ hb hi ⟨q1, q2⟩ harm hran hf hp hs) rfl
  · -- all updates have run
    rcases hmain l hl with ⟨q, h⟩ | ⟨q, h⟩ | ⟨q, h⟩
    · refine hsem l hl q h ?_
      rintro p rfl j hj
      have := hmin j (own_mem_cells hl hj)
      have := endT_le_T (P := P) p
      omega
    · refine no _ (.finish l q hb hl h ?_) rfl
      rintro j hj p rfl
      have hok := hI.mainOK l hl
      rw [h] at hok
      have hmp := hok.2 p (by omega)
      have hjc := own_mem_cells hl hj
      rw [chunkReady_iff hv hmp]
      obtain ⟨k, hk⟩ := List.getElem?_of_mem hj
      refine ⟨hsetup j hjc p ?_, (hI.ran j hjc _).2 ?_⟩
      · rw [hI.past l hl k j hk p, h]; simp [Past]
      · have := hmin j hjc
        have := endT_le_T (P := P) p
        have := chunk_pos hv hmp
        omega
    · exact hlr q h

/-! ## Termination -/

theorem lt_of_more (hv : P.Valid) {q : Nat} (h : P.more q) : q < P.maxSteps := by
  unfold more at h
  have := Nat.le_mul_of_pos_right q hv.hc
  omega

variable (P) in
def rankM (l : Nat) : MPc → Nat
  | .head q => (P.maxSteps - q) * ((P.own l).length + 4) + 2
  | .launch q k => (P.maxSteps - q) * ((P.own l).length + 4) + 1 - k
  | .sem q => (P.maxSteps - q) * ((P.own l).length + 4) - (P.own l).length
  | .wait _ => 1
  | .ret _ => 0

variable (P) in
def rankS (i : Int) (q : Nat) : SPc → Nat
  | .idle => P.T * ((P.nbr i).length + 1) + (P.nbr i).length + 3
  | .launched => P.T * ((P.nbr i).length + 1) + (P.nbr i).length + 2
  | .run t k => (P.endT q - t) * ((P.nbr i).length + 1) + ((P.nbr i).length - k) + 1
  | .done => 0

open Finset in
variable (P) in
/-- an upper limit for the number of steps to come -/
def size (s : St C M) : Nat :=
  (∑ i ∈ P.cells.toFinset, ((P.nbr i).length - s.regd i)) +
  (∑ l ∈ range P.L, P.rankM l (s.main l)) +
  (∑ i ∈ P.cells.toFinset, ∑ q ∈ range P.maxSteps, P.rankS i q (s.setup i q)) +
  ((∑ i ∈ P.cells.toFinset, ∑ t ∈ range P.T,
    if s.ran i t = true then 0 else 1 + (P.nbr i).length) + s.net.length) +
  (∑ l ∈ range P.L, ∑ q ∈ range P.maxSteps, if s.sig l q = true then 0 else 1) +
  (if s.bad = none then 1 else 0)

theorem sum_add_le {ι : Type} [DecidableEq ι] {S : Finset ι} {f f' : ι → Nat} {a : ι} {c : Nat}
    (ha : a ∈ S) (h : f' a + c ≤ f a) (ho : ∀ x, x ≠ a → f' x ≤ f x) :
    (∑ x ∈ S, f' x) + c ≤ ∑ x ∈ S, f x := by
  rw [← Finset.add_sum_erase S f ha, ← Finset.add_sum_erase S f' ha]
  have : ∑ x ∈ S.erase a, f' x ≤ ∑ x ∈ S.erase a, f x :=
    Finset.sum_le_sum fun x hx => ho x (Finset.ne_of_mem_erase hx)
  omega

theorem sum_update_lt {ι : Type} [DecidableEq ι] {S : Finset ι} {β : Type} (r : ι → β → Nat)
    (v : ι → β) {a : ι} {b : β} (ha : a ∈ S) (h : r a b < r a (v a)) :
    (∑ x ∈ S, r x (Function.update v a b x)) + 1 ≤ ∑ x ∈ S, r x (v x) := by
  refine sum_add_le ha (by simpa using Nat.succ_le_of_lt h) ?_
  intro x hx
  simp [Function.update_of_ne hx]

theorem sum2_add_le {ι κ : Type} [DecidableEq ι] [DecidableEq κ] {S : Finset ι} {R : Finset κ}
    {f f' : ι → κ → Nat} {a : ι} {b : κ} {c : Nat} (ha : a ∈ S) (hb : b ∈ R)
    (h : f' a b + c ≤ f a b) (ho : ∀ x y, ¬ (x = a ∧ y = b) → f' x y ≤ f x y) :
    (∑ x ∈ S, ∑ y ∈ R, f' x y) + c ≤ ∑ x ∈ S, ∑ y ∈ R, f x y := by
  refine sum_add_le (f := fun x => ∑ y ∈ R, f x y) (f' := fun x => ∑ y ∈ R, f' x y) ha ?_ ?_
  · refine sum_add_le hb h ?_
    intro y hy
    exact ho a y (fun e => hy e.2)
  · intro x hx
    exact Finset.sum_le_sum fun y _ => ho x y (fun e => hx e.1)

theorem sum2_put_lt {ι κ : Type} [DecidableEq ι] [DecidableEq κ] {S : Finset ι} {R : Finset κ}
    {β : Type} (r : ι → κ → β → Nat) (v : ι → κ → β) {a : ι} {b : κ} {w : β}
    (ha : a ∈ S) (hb : b ∈ R) (h : r a b w < r a b (v a b)) :
    (∑ x ∈ S, ∑ y ∈ R, r x y (put2 v a b w x y)) + 1 ≤ ∑ x ∈ S, ∑ y ∈ R, r x y (v x y) := by
  refine sum2_add_le ha hb (by simpa [put2_self] using Nat.succ_le_of_lt h) ?_
  intro x y hxy
  rw [put2_ne _ hxy]

theorem size_main {s : St C M} {l : Nat} {pc : MPc} (hl : l < P.L)
    (h : P.rankM l pc < P.rankM l (s.main l)) :
    P.size { s with main := Function.update s.main l pc } < P.size s := by
  have := sum_update_lt (S := Finset.range P.L) (fun l => P.rankM l) s.main
    (Finset.mem_range.2 hl) h
  simp only [size]
  omega

theorem size_setup {s : St C M} {i : Int} {q : Nat} {pc : SPc} (hi : i ∈ P.cells)
    (hq : q < P.maxSteps) (h : P.rankS i q pc < P.rankS i q (s.setup i q)) :
    P.size { s with setup := put2 s.setup i q pc } < P.size s := by
  have := sum2_put_lt (S := P.cells.toFinset) (R := Finset.range P.maxSteps)
    (fun i q => P.rankS i q) s.setup (by simpa using hi) (Finset.mem_range.2 hq) h
  simp only [size]
  omega

theorem size_bad {s : St C M} {b : Bad} (hb : s.bad = none) :
    P.size { s with bad := some b } < P.size s := by
  simp only [size, hb]
  simp

theorem size_decreases (hv : P.Valid) {s s' : St C M} {G : Gh} (hI : P.Inv s G)
    (hs : P.Step s s') : P.size s' < P.size s := by
  have hrank : ∀ l q, P.more q → (P.own l).length + 4 ≤
      (P.maxSteps - q) * ((P.own l).length + 4) := by
    intro l q hq
    have := lt_of_more hv hq
    exact Nat.le_mul_of_pos_left _ (by omega)
  cases hs with
  | construct i hb hi h =>
    have := sum_update_lt (S := P.cells.toFinset) (fun i n => (P.nbr i).length - n) s.regd
      (a := i) (b := s.regd i + 1) (by simpa using hi) (by omega)
    simp only [size]
    omega
  | enter l q hb hl h hm =>
    refine size_main hl ?_
    rw [h]; simp only [rankM]; omega
  | leave l q hb hl h hm =>
    refine size_main hl ?_
    rw [h]; simp only [rankM]; omega
  | launch l q k i hb hl h hk =>
    have hok := hI.mainOK l hl
    rw [h] at hok
    have hi : i ∈ P.cells := own_mem_cells hl (List.mem_of_getElem? hk)
    have hidle : s.setup i q = .idle := by
      by_contra hne
      have := (hI.past l hl k i hk q).1 hne
      rw [h] at this
      simp [Past] at this
    have h1 : P.size { s with setup := put2 s.setup i q .launched } < P.size s := by
      refine size_setup hi (lt_of_more hv hok.1) ?_
      rw [hidle]; simp only [rankS]; omega
    refine lt_trans (size_main (s := { s with setup := put2 s.setup i q .launched }) hl ?_) h1
    have := hrank l q hok.1
    have := (List.getElem?_eq_some_iff.1 hk).1
    simp only [h, rankM]
    omega
  | attach l q k hb hl h hk hne =>
    have hok := hI.mainOK l hl
    rw [h] at hok
    have := hrank l q hok.1
    refine lt_of_lt_of_eq (size_main (s := { s with att := put2 s.att l q true }) hl ?_) rfl
    simp only [h, rankM]
    omega
  | attachEmpty l q k hb hl h hne => exact size_bad hb
  | pass l q hb hl h hs =>
    have hok := hI.mainOK l hl
    rw [h] at hok
    have h0 := hrank l q hok
    have h2 : (P.maxSteps - q) * ((P.own l).length + 4) =
        (P.maxSteps - (q + 1)) * ((P.own l).length + 4) + ((P.own l).length + 4) := by
      have := lt_of_more hv hok
      obtain ⟨d, hd⟩ : ∃ d, P.maxSteps - q = d + 1 := ⟨P.maxSteps - q - 1, by omega⟩
      rw [hd, show P.maxSteps - (q + 1) = d by omega]; ring
    refine size_main hl ?_
    rw [h]; simp only [rankM]
    omega
  | finish l q hb hl h hr =>
    refine size_main hl ?_
    rw [h]; simp only [rankM]; omega
  | signal l q i hb hl ha hs hi hr hm =>
    have hq : P.more q := by
      have := (hI.att l hl q).1 ha
      have hok := hI.mainOK l hl
      cases hmn : s.main l with
      | head q' => rw [hmn] at this hok; exact hok q this
      | launch q' k' => rw [hmn] at this hok; exact more_mono hok.1 (le_of_lt this)
      | sem q' => rw [hmn] at this hok; exact more_mono hok this
      | wait q' => rw [hmn] at this hok; exact hok.2 q this
      | ret q' => rw [hmn] at this hok; exact hok.2 q this
    have := sum2_put_lt (S := Finset.range P.L) (R := Finset.range P.maxSteps)
      (fun _ _ b => if b = true then 0 else 1) s.sig (a := l) (b := q) (w := true)
      (Finset.mem_range.2 hl) (Finset.mem_range.2 (lt_of_more hv hq)) (by simp [hs])
    simp only [size]
    omega
  | signalLate l q q' i hb hl ha hs hi hr hm => exact size_bad hb
  | begin i q hb hi h hc hf =>
    refine size_setup hi (lt_of_more hv (more_of_launched hI hi (by simp [h]))) ?_
    rw [h]; simp only [rankS]
    have : (P.endT q - P.startT q) * ((P.nbr i).length + 1) ≤ P.T * ((P.nbr i).length + 1) :=
      Nat.mul_le_mul_right _ (by have := endT_le_T (P := P) q; omega)
    omega
  | get i j q t k hb hi h ht hj =>
    have h1 : P.size { s with setup := put2 s.setup i q (.run t (k + 1)) } < P.size s := by
      refine size_setup hi (lt_of_more hv (more_of_launched hI hi (by simp [h]))) ?_
      have := (List.getElem?_eq_some_iff.1 hj).1
      rw [h]; simp only [rankS]; omega
    refine lt_of_le_of_lt ?_ h1
    unfold request bufGet
    split
    · split
      · exact le_refl _
      · simp only [size, hb]; simp
      · exact le_refl _
    · exact le_refl _
  | arm i q t k hb hi h ht hk =>
    refine lt_of_lt_of_eq (size_setup (s := { s with armed := put2 s.armed i t true }) hi
      (lt_of_more hv (more_of_launched hI hi (by simp [h]))) ?_) rfl
    simp only [h, rankS]
    obtain ⟨d, hd⟩ : ∃ d, P.endT q - t = d + 1 := ⟨P.endT q - t - 1, by omega⟩
    rw [hd, show P.endT q - (t + 1) = d by omega, Nat.add_mul]
    omega
  | done i q t k hb hi h ht =>
    refine size_setup hi (lt_of_more hv (more_of_launched hI hi (by simp [h]))) ?_
    rw [h]; simp only [rankS]; omega
  | update i q t hb hi hq ha hr hf hp hs =>
    have hn := turn hv hI hi hq hr hp
    have hres := result_eq hv hI hi hn hf
    have htT : t < P.T := lt_of_lt_of_le hq.2 (endT_le_T q)
    have hlen := outgoing_length i (hv.nnd i hi) (hv.once i hi t htT) (hv.send i hi t htT)
    have := sum2_add_le (S := P.cells.toFinset) (R := Finset.range P.T)
      (f := fun i t => if s.ran i t = true then 0 else 1 + (P.nbr i).length)
      (f' := fun i' t' => if put2 s.ran i t true i' t' = true then 0 else 1 + (P.nbr i').length)
      (a := i) (b := t) (c := 1 + (P.nbr i).length) (by simpa using hi) (Finset.mem_range.2 htT)
      (by simp [put2_self, hr]) (by intro x y hxy; simp only [put2_ne _ hxy]; exact le_refl _)
    rw [hres]
    simp only [size, List.length_append, List.length_map, hlen]
    omega
  | updateThrows i q t hb hi hq ha hr hf hp hs => exact size_bad hb
  | deliver a b m hb h =>
    have h1 : P.size { s with net := a ++ b } < P.size s := by
      simp only [size, h, List.length_append, List.length_cons]
      omega
    refine lt_of_le_of_lt ?_ h1
    unfold bufStore
    split
    · exact le_refl _
    · exact le_refl _
    · simp only [size, hb]; simp

theorem exec_bound (hv : P.Valid) {n : Nat} {s : St C M} (h : P.Exec n s) :
    n + P.size s ≤ P.size P.start := by
  induction h with
  | start => simp
  | step he hs ih =>
    obtain ⟨G, hI⟩ := inv_exec hv he
    have := size_decreases hv hI hs
    omega

end LGD.Dataflow.Sim
