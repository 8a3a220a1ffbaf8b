import Verif.Tune.Search
import Mathlib.Tactic.IntervalCases

/-!
# C58: parameters stay in their domain, and pattern search returns the best point it has evaluated
-/

namespace LGD.C58
open LGD.Tune

/-- Calls which change a parameter. -/
inductive Op where
  | set (x : ℚ)
  | add (s : ℚ)

/-- One call. -/
def Op.run (p : Param) : Op → Param
  | .set x => p.setValue x
  | .add s => p.add s

theorem run_within (ops : List Op) : ∀ p, Ok p → Within p → Same p (ops.foldl Op.run p) ∧ Within (ops.foldl Op.run p) := by
  induction ops with
  | nil => exact fun p _ h => ⟨Same.refl p, h⟩
  | cons o ops ih =>
    intro p h _
    rw [List.foldl_cons]
    have hs : Same p (Op.run p o) := by cases o <;> [exact same_set _ _; exact same_add _ _]
    have hw : Within (Op.run p o) := by cases o <;> [exact set_within h _; exact add_within h _]
    obtain ⟨h1, h2⟩ := ih _ (hs.ok h) hw
    exact ⟨hs.trans h1, h2⟩

/-- **C58, intervals.** After any calls of `setValue` and `+=` the value of an interval parameter is at least the minimum and below the maximum, if its granularity is positive and not larger than its extent. -/
theorem interval_domain (ty : Ty) (a b g : ℚ) (hg : 0 < g) (hb : g ≤ b - a) (ops : List Op) :
    ∃ q : Ival, ops.foldl Op.run (Ival.make ty a b g) = .ival q ∧ a ≤ q.current ∧ q.current < b ∧ q.current = a + q.index := by
  have h0 : Within (Ival.make ty a b g) := ⟨le_refl _, by simp, le_refl _, by change a < b; linarith⟩
  obtain ⟨h1, h2⟩ := run_within ops (Ival.make ty a b g) ⟨hg, hb⟩ h0
  revert h1 h2
  cases ops.foldl Op.run (Ival.make ty a b g) with
  | ival q =>
    rintro ⟨-, ha, hb, -⟩ ⟨-, hc, hl, hu⟩
    dsimp only at ha hb
    rw [← ha] at hl hc
    rw [← hb] at hu
    exact ⟨q, rfl, hl, hu, hc⟩
  | dset q => exact fun h => h.elim

/-- **C58, sets.** After any calls the value of a discrete parameter is one of the elements of its nonempty set. -/
theorem set_domain (n : Nat) (hn : 0 < n) (ops : List Op) :
    ∃ q : DSet, ops.foldl Op.run (DSet.make n) = .dset q ∧ ∃ i, q.current = some i ∧ i < n ∧ q.index = i := by
  have h0 : Within (DSet.make n) := ⟨le_refl _, by change (0 : Int) < n; exact_mod_cast hn, by simp [hn]⟩
  obtain ⟨h1, h2⟩ := run_within ops (DSet.make n) hn h0
  revert h1 h2
  cases ops.foldl Op.run (DSet.make n) with
  | ival q => exact fun h => h.elim
  | dset q =>
    intro hs ⟨h1, h2, h3⟩
    have hs : n = q.size := hs
    refine ⟨q, rfl, q.index.toNat, h3, by omega, by omega⟩

/-- an interval of floating point numbers: 2.5, then 11 beyond the end, then back -/
example : (([Op.set (5 / 2), .add 11, .add (-7 / 2)].foldl Op.run (Ival.make .dbl 3 10 (1 / 2))) : Param) = .ival ⟨.dbl, 3, 10, 1 / 2, 3, 6⟩ := by decide +kernel

/-- the third of four elements -/
example : [Op.add 9, .add (-1)].foldl Op.run (DSet.make 4) = .dset ⟨4, 2, some 2⟩ := by decide +kernel

theorem make_domain {ps : List Param} {sw ms : List ℚ} {o : Pattern} (h : Pattern.make ps sw ms = some o) (hok : ∀ p ∈ ps, Ok p) (hw : ∀ p ∈ ps, Within p) : InDomain ps o.params := by
  have hp : o.params = ps ∨ o.params = ps.map fun p => p.setValue (p.max / 2) := by
    unfold Pattern.make at h
    dsimp only at h
    rw [Option.ite_none_right_eq_some] at h
    rw [← Option.some.inj h.2]
    split <;> split <;> simp
  rcases hp with e | e <;> rw [e]
  · exact ⟨rfl, fun i hi _ => ⟨Same.refl _, hw _ (List.getElem_mem hi)⟩⟩
  · refine ⟨by simp, fun i hi hi' => ?_⟩
    rw [List.getElem_map]
    exact ⟨same_set _ _, set_within (hok _ (List.getElem_mem hi)) _⟩

theorem domain_trans {ps m x : List Param} (h1 : InDomain ps m) (h2 : InDomain m x) : InDomain ps x := by
  refine ⟨h2.1.trans h1.1, fun i hi hi' => ?_⟩
  have hm : i < m.length := by rw [h1.1]; exact hi
  exact ⟨(h1.2 i hi hm).1.trans (h2.2 i hm hi').1, (h2.2 i hm hi').2⟩

theorem domain_ok {ps m : List Param} (hok : ∀ p ∈ ps, Ok p) (h : InDomain ps m) : ∀ p ∈ m, Ok p := by
  intro p hp
  obtain ⟨i, hi, rfl⟩ := List.mem_iff_getElem.1 hp
  have hi' : i < ps.length := by rw [← h.1]; exact hi
  exact (h.2 i hi' hi).1.ok (hok _ (List.getElem_mem hi'))

theorem search_inv {ps : List Param} {sw ms : List ℚ} {o : Pattern} (h : Pattern.make ps sw ms = some o) (hok : ∀ p ∈ ps, Ok p) (hw : ∀ p ∈ ps, Within p) (eval : List Param → ℚ) :
    SInv eval o.params ⟨o.params, o.stepwidth, 0, eval o.params, [o.params], false⟩ := by
  have hd := make_domain h hok hw
  refine ⟨by simp, rfl, by simp, ?_, by simp⟩
  intro x hx
  rw [List.mem_singleton.1 hx]
  refine ⟨rfl, fun i hi _ => ⟨Same.refl _, ?_⟩⟩
  exact (hd.2 i (by rw [← hd.1]; exact hi) hi).2

/-- **C58, search.** Whatever the evaluator and the number of steps: all points handed to the evaluator lie in the domain, the result is one of them, the fitness is the result's, and no other evaluated point is
better - in particular not the one the search started from. At most two points per parameter and step are evaluated. -/
theorem pattern_search {ps : List Param} {sw ms : List ℚ} {o : Pattern} (h : Pattern.make ps sw ms = some o) (hok : ∀ p ∈ ps, Ok p) (hw : ∀ p ∈ ps, Within p) (eval : List Param → ℚ) (steps : Nat) :
    let r := o.search eval steps
    (∀ x ∈ r.seen, InDomain ps x) ∧ r.middle ∈ r.seen ∧ r.fit = eval r.middle ∧ (∀ x ∈ r.seen, eval x ≤ r.fit) ∧ o.params ∈ r.seen ∧
      r.seen.length ≤ 1 + steps * (2 * ps.length) := by
  have hd := make_domain h hok hw
  obtain ⟨s, hl⟩ := loop_inv (domain_ok hok hd) o.minStep steps _ (search_inv h hok hw eval)
  rw [hd.1] at hl
  exact ⟨fun x hx => domain_trans hd (s.dom x hx), s.mid, s.fit, s.best, s.start, hl⟩

/-- Step widths are at least the smallest ones, which are the granularities. -/
structure Sound (o : Pattern) : Prop where
  reg : Regular o.params o.minStep
  len : o.stepwidth.length = o.minStep.length
  sw : ∀ (i : Nat) (h : i < o.minStep.length) (h' : i < o.stepwidth.length), o.minStep[i] ≤ o.stepwidth[i]

/-- **C58, local optimum.** If the search stops before its steps are used up, then no single step of the size of a parameter's granularity leads to something better. -/
theorem pattern_local {o : Pattern} (h : Sound o) (eval : List Param → ℚ) (steps : Nat) (hd : (o.search eval steps).done = true) :
    ∀ (i : Nat) (hi : i < o.params.length), eval (bump (o.search eval steps).middle i o.params[i].gran) ≤ (o.search eval steps).fit ∧
      eval (bump (o.search eval steps).middle i (-o.params[i].gran)) ≤ (o.search eval steps).fit := by
  have := loop_local (eval := eval) steps ⟨o.params, o.stepwidth, 0, eval o.params, [o.params], false⟩
    ⟨h.reg, h.len, h.sw, rfl, by simp, fun h => absurd rfl h⟩ rfl hd
  intro i hi
  have hi' : i < o.minStep.length := by rw [h.reg.1]; exact hi
  have := this i hi'
  rw [(h.reg.2 i hi hi').2] at this
  exact this

/-- Points the search may visit: values in the domain, multiples of the granularity. -/
def Points (o : Pattern) (x : List Param) : Prop := InDomain o.params x ∧ Regular x o.minStep

/-- **C58, end.** If no step which changes a parameter leaves the fitness as it is, then the search stops by itself - at a local optimum, as above: after as many steps as there are values of the evaluator plus the number of
times the step widths can be halved. -/
theorem pattern_ends {ps : List Param} {sw ms : List ℚ} {o : Pattern} (h : Pattern.make ps sw ms = some o) (hok : ∀ p ∈ ps, Ok p) (hw : ∀ p ∈ ps, Within p) (hs : Sound o)
    (eval : List Param → ℚ) (F : Finset ℚ) (hF : ∀ x, Points o x → eval x ∈ F) (hne : ∀ x, Points o x → ∀ i s, bump x i s ≠ x → eval (bump x i s) ≠ eval x)
    (K : Nat) (hK : ∀ (i : Nat) (h : i < o.minStep.length) (h' : i < o.stepwidth.length), o.stepwidth[i] ≤ 2 ^ K * o.minStep[i]) (steps : Nat) (hk : F.card + K ≤ steps) :
    (o.search eval steps).done = true := by
  have hd := make_domain h hok hw
  have hok' := domain_ok hok hd
  have hms : ∀ m ∈ o.minStep, 0 < m := by
    intro m hm
    obtain ⟨i, hi, rfl⟩ := List.mem_iff_getElem.1 hm
    obtain ⟨h1, h2⟩ := hs.reg.2 i (by rw [← hs.reg.1]; exact hi) hi
    rw [h2]
    exact h1.2.1
  have h0 : Points o o.params := ⟨⟨rfl, fun i hi _ => ⟨Same.refl _, (hd.2 i (by rw [← hd.1]; exact hi) hi).2⟩⟩, hs.reg⟩
  refine loop_ends hok' hms (F := F) (P := Points o) (fun x i s hx => ⟨bump_domain hok' hx.1 i s, bump_regular hx.2 i s⟩) hF hne steps _ K (search_inv h hok hw eval) h0 hK ?_
  have hmem := hF _ h0
  have : above F (eval o.params) < F.card := by
    refine Finset.card_lt_card ((Finset.ssubset_iff_of_subset (Finset.filter_subset _ _)).2 ⟨_, hmem, ?_⟩)
    rw [Finset.mem_filter]; exact fun hx => lt_irrefl _ hx.2
  dsimp only
  omega

/-! ## An example -/

/-- two parameters: an interval of integers and a set -/
def two : List Param := [Ival.make .int (-3) 3 2, DSet.make 3]

/-- what `getValue()` yields -/
def val (x : List Param) (i : Nat) : ℚ := (x[i]?.map Param.value).getD 0

/-- a hill with its top at 4 and 1 -/
def hill (x : List Param) : ℚ := 100 - (val x 0 - 4) * (val x 0 - 4) - 3 * (val x 1 - 1) * (val x 1 - 1)

/-- the top is found, after nine evaluations -/
example : Pattern.make two [4, 1] [] = some ⟨two, [4, 1], [2, 1]⟩ := by decide +kernel

example : ((⟨two, [4, 1], [2, 1]⟩ : Pattern).search hill 5).done = true ∧ ((⟨two, [4, 1], [2, 1]⟩ : Pattern).search hill 5).fit = 100 ∧
    ((⟨two, [4, 1], [2, 1]⟩ : Pattern).search hill 5).middle = [.ival ⟨.int, -3, 3, 2, 4, 1⟩, .dset ⟨3, 1, some 1⟩] ∧
    ((⟨two, [4, 1], [2, 1]⟩ : Pattern).search hill 5).seen.length = 9 := by decide +kernel

theorem two_sound : Sound ⟨two, [4, 1], [2, 1]⟩ := by
  refine ⟨⟨rfl, fun i hi _ => ?_⟩, rfl, fun i hi _ => ?_⟩
  · rcases i with _ | _ | i
    · exact ⟨⟨⟨by norm_num, by norm_num, by norm_num, by norm_num⟩, by change (0 : ℚ) < 2; norm_num, 3, by norm_num, by change (3 : ℚ) - -3 = (3 : Nat) * 2; norm_num, 0, by norm_num,
        by change (0 : ℚ) = (0 : Nat) * 2; norm_num, fun _ => ⟨2, rfl⟩⟩, rfl⟩
    · exact ⟨⟨⟨by norm_num, by norm_num, rfl⟩, by change (0 : ℚ) < 1; norm_num, 3, by norm_num, by change ((3 : Nat) : ℚ) = (3 : Nat) * 1; norm_num, 0, by norm_num,
        by change ((0 : Int) : ℚ) = (0 : Nat) * 1; norm_num, trivial⟩, rfl⟩
    · exact absurd hi (by simp [two])
  · rcases i with _ | _ | i
    · change (2 : ℚ) ≤ 4; norm_num
    · exact le_refl (1 : ℚ)
    · exact absurd hi (by simp)

theorem two_ok : (∀ p ∈ two, Ok p) ∧ ∀ p ∈ two, Within p := by
  constructor <;> intro p hp <;> rcases List.mem_cons.1 hp with rfl | hp
  · exact ⟨by norm_num, by norm_num⟩
  · rw [List.mem_singleton.1 hp]; exact Nat.zero_lt_succ _
  · exact ⟨by norm_num, by norm_num, by norm_num, by norm_num⟩
  · rw [List.mem_singleton.1 hp]; exact ⟨by norm_num, by norm_num, rfl⟩

/-- the nine points -/
theorem two_points {x : List Param} (h : Points ⟨two, [4, 1], [2, 1]⟩ x) : ∃ a b : Nat, a < 3 ∧ b < 3 ∧ x = [.ival ⟨.int, -3, 3, 2, a * 2, -3 + a * 2⟩, .dset ⟨3, b, some b⟩] := by
  obtain ⟨⟨hl, hd⟩, hr⟩ := h
  match x, hl, hd, hr with
  | [p, q], _, hd, hr =>
    obtain ⟨hp, hpw⟩ := hd 0 (by simp [two]) (by simp)
    obtain ⟨hq, hqw⟩ := hd 1 (by simp [two]) (by simp)
    obtain ⟨⟨-, hg, m, hm, hmax, j, hj, hv, -⟩, -⟩ := hr.2 0 (by simp) (by simp)
    cases p with
    | dset p => exact hp.elim
    | ival p =>
      cases q with
      | ival q => exact hq.elim
      | dset q =>
        obtain ⟨ty, mi, ma, g, ix, cu⟩ := p
        obtain ⟨rfl, rfl, rfl, rfl⟩ : Ty.int = ty ∧ (-3 : ℚ) = mi ∧ (3 : ℚ) = ma ∧ (2 : ℚ) = g := hp
        obtain ⟨sz, jx, cq⟩ := q
        obtain rfl : 3 = sz := hq
        have hv : ix = j * 2 := hv
        have hmax : (3 : ℚ) - -3 = m * 2 := hmax
        have hm3 : m = 3 := by
          have : (m : ℚ) = 3 := by linarith
          exact_mod_cast this
        subst hm3
        have hcu : cu = -3 + ix := hpw.2.1
        have h0 : 0 ≤ jx := hqw.1
        have h1 : jx < (3 : Nat) := hqw.2.1
        have h2 : cq = some jx.toNat := hqw.2.2
        have hjx : ((jx.toNat : Nat) : Int) = jx := by omega
        refine ⟨j, jx.toNat, hj, by omega, ?_⟩
        rw [hcu, hv, h2, hjx]

/-- every point has a value of its own -/
def slope (x : List Param) : ℚ := 3 * val x 0 + val x 1

/-- `pattern_ends` applies -/
example (steps : Nat) (hs : 16 ≤ steps) : ((⟨two, [4, 1], [2, 1]⟩ : Pattern).search slope steps).done = true := by
  refine pattern_ends (ps := two) (sw := [4, 1]) (ms := []) (by decide +kernel) two_ok.1 two_ok.2 two_sound slope ((Finset.range 15).image (fun n : Nat => (n : ℚ))) ?_ ?_ 1 ?_ steps
    (le_trans (Nat.add_le_add_right Finset.card_image_le 1) (by simpa using hs))
  · intro x hx
    obtain ⟨a, b, ha, hb, rfl⟩ := two_points hx
    rw [Finset.mem_image]
    refine ⟨6 * a + b, Finset.mem_range.2 (by omega), ?_⟩
    simp only [slope, val, List.getElem?_cons_zero, List.getElem?_cons_succ, Option.map_some, Option.getD_some, Param.value]
    push_cast
    ring
  · intro x hx i s hne he
    have hx' : Points ⟨two, [4, 1], [2, 1]⟩ (bump x i s) := ⟨bump_domain two_ok.1 hx.1 i s, bump_regular hx.2 i s⟩
    obtain ⟨a, b, ha, hb, e⟩ := two_points hx
    obtain ⟨a', b', ha', hb', e'⟩ := two_points hx'
    rw [e', e] at he
    simp only [slope, val, List.getElem?_cons_zero, List.getElem?_cons_succ, Option.map_some, Option.getD_some, Param.value, Int.cast_natCast] at he
    have h1 : 6 * a' + b' = 6 * a + b := by
      have : ((6 * a' + b' : Nat) : ℚ) = ((6 * a + b : Nat) : ℚ) := by push_cast; linarith
      exact_mod_cast this
    have h2 : a' = a := by omega
    have h3 : b' = b := by omega
    subst h2 h3
    exact hne (e'.trans e.symm)
  · intro i hi _
    rcases i with _ | _ | i
    · change (4 : ℚ) ≤ 2 ^ 1 * 2; norm_num
    · change (1 : ℚ) ≤ 2 ^ 1 * 1; norm_num
    · exact absurd hi (by simp)

/-! ## What goes wrong -/

/-- **C58, negation.** `DiscreteSet::setValue` ignores the value: the parameter stays where it is. -/
theorem set_ignored (q : DSet) (h : Within (.dset q)) (x : ℚ) : (Param.dset q).setValue x = .dset q := by
  obtain ⟨h0, h1, h2⟩ := h
  have e : (Param.dset q).sanitize q.index = q.index := by
    have a : ¬ ((q.index : ℚ) < 0) := by rw [not_lt]; exact_mod_cast h0
    have b : ¬ ((q.size : ℚ) ≤ q.index) := by rw [not_le]; exact_mod_cast h1
    unfold Param.sanitize
    dsimp only
    rw [if_neg a]
    exact if_neg b
  simp only [Param.setValue, e, trunc_int, DSet.read, if_pos (And.intro h0 h1), ← h2]

/-- **C58, negation.** Without a granularity the value becomes the maximum, which doesn't belong to the domain otherwise. -/
theorem maximum_reached : ∃ q, (Ival.make .dbl 0 1 0).setValue 7 = .ival q ∧ q.current = 1 ∧ q.maximum = 1 := ⟨_, rfl, by decide +kernel, rfl⟩

/-- **C58, negation.** With a granularity larger than the extent the value drops below the minimum. The default granularity is 1. -/
theorem below_minimum : ∃ q, (Ival.make .dbl 0 (1 / 2) 1).setValue (6 / 5) = .ival q ∧ q.current = -1 / 2 ∧ q.minimum = 0 := ⟨_, rfl, by decide +kernel, rfl⟩

/-- `N` by `N` points -/
def square (i j : ℚ) : List Param := [.ival ⟨.int, 0, 2, 1, i, i⟩, .ival ⟨.int, 0, 2, 1, j, j⟩]

/-- the round trip on a plateau -/
def onPlateau (t : PSt) : Prop :=
  t.sw = [1, 1] ∧ t.fit = 0 ∧ t.done = false ∧
    ((t.middle = square 0 0 ∧ (t.old = 0 ∨ t.old = 2)) ∨ (t.middle = square 0 1 ∧ t.old = 3) ∨ (t.middle = square 1 1 ∧ t.old = 1) ∨ (t.middle = square 1 0 ∧ t.old = 4))

theorem visit_flat (m : List Param) (sw : List ℚ) (old i : Nat) (b : Best) (hb : b.fit = 0) :
    (visit (fun _ => 0) m sw old b i).fit = 0 ∧
    (visit (fun _ => 0) m sw old b i).pos = if moved m sw i = false ∨ (i % 2 = 0 ∧ i - 1 = old) ∨ (i % 2 ≠ 0 ∧ i + 1 = old) then b.pos else i := by
  unfold visit
  split
  · exact ⟨hb, rfl⟩
  · simp [hb]

/-- the position `getMaxPos` finds if all points are equally good -/
def flatPos (m : List Param) (sw : List ℚ) (old : Nat) : Nat :=
  ((List.range (2 * m.length)).map (· + 1)).foldl (fun p i => if moved m sw i = false ∨ (i % 2 = 0 ∧ i - 1 = old) ∨ (i % 2 ≠ 0 ∧ i + 1 = old) then p else i) 0

theorem maxPos_flat (m : List Param) (sw : List ℚ) (old : Nat) (seen : List (List Param)) :
    (maxPos (fun _ => 0) m sw old 0 seen).fit = 0 ∧ (maxPos (fun _ => 0) m sw old 0 seen).pos = flatPos m sw old := by
  have key : ∀ (l : List Nat) (b : Best), b.fit = 0 → (l.foldl (visit (fun _ => 0) m sw old) b).fit = 0 ∧
      (l.foldl (visit (fun _ => 0) m sw old) b).pos = l.foldl (fun p i => if moved m sw i = false ∨ (i % 2 = 0 ∧ i - 1 = old) ∨ (i % 2 ≠ 0 ∧ i + 1 = old) then p else i) b.pos := by
    intro l
    induction l with
    | nil => exact fun b hb => ⟨hb, rfl⟩
    | cons a l ih =>
      intro b hb
      obtain ⟨h1, h2⟩ := visit_flat m sw old a b hb
      obtain ⟨h3, h4⟩ := ih _ h1
      refine ⟨h3, ?_⟩
      rw [List.foldl_cons, List.foldl_cons, ← h2]
      exact h4
  exact key _ ⟨0, 0, seen⟩ rfl

theorem flat_iter {t : PSt} (h : onPlateau t) : onPlateau (patIter (fun _ => 0) [1, 1] t) := by
  obtain ⟨middle, sw, old, fit, seen, done⟩ := t
  obtain ⟨h1, h2, h3, h4⟩ := h
  dsimp only at h1 h2 h3 h4
  subst h1 h2 h3
  obtain ⟨hf, hp⟩ := maxPos_flat middle [1, 1] old seen
  have step : ∀ p, flatPos middle [1, 1] old = p → p ≠ 0 →
      patIter (fun _ => 0) [1, 1] ⟨middle, [1, 1], old, 0, seen, false⟩ = ⟨point middle [1, 1] p, [1, 1], p, 0, (maxPos (fun _ => 0) middle [1, 1] old 0 seen).seen, false⟩ := by
    intro p hp' h0
    rw [hp'] at hp
    unfold patIter
    simp only [hp, hf, if_neg h0]
  rcases h4 with ⟨rfl, rfl | rfl⟩ | ⟨rfl, rfl⟩ | ⟨rfl, rfl⟩ | ⟨rfl, rfl⟩
  · rw [step 3 (by decide +kernel) (by decide)]
    exact ⟨rfl, rfl, rfl, Or.inr (Or.inl ⟨show point (square 0 0) [1, 1] 3 = square 0 1 by decide +kernel, rfl⟩)⟩
  · rw [step 3 (by decide +kernel) (by decide)]
    exact ⟨rfl, rfl, rfl, Or.inr (Or.inl ⟨show point (square 0 0) [1, 1] 3 = square 0 1 by decide +kernel, rfl⟩)⟩
  · rw [step 1 (by decide +kernel) (by decide)]
    exact ⟨rfl, rfl, rfl, Or.inr (Or.inr (Or.inl ⟨show point (square 0 1) [1, 1] 1 = square 1 1 by decide +kernel, rfl⟩))⟩
  · rw [step 4 (by decide +kernel) (by decide)]
    exact ⟨rfl, rfl, rfl, Or.inr (Or.inr (Or.inr ⟨show point (square 1 1) [1, 1] 4 = square 1 0 by decide +kernel, rfl⟩))⟩
  · rw [step 2 (by decide +kernel) (by decide)]
    exact ⟨rfl, rfl, rfl, Or.inl ⟨show point (square 1 0) [1, 1] 2 = square 0 0 by decide +kernel, Or.inr rfl⟩⟩

/-- **C58, negation.** On a plateau the search goes round in circles: with an evaluator which yields the same value everywhere and two parameters with two values each it never stops by itself, no matter how many steps it
is given. -/
theorem plateau_cycles : Pattern.make (square 0 0) [1, 1] [1, 1] = some ⟨square 0 0, [1, 1], [1, 1]⟩ ∧
    ∀ steps, ((⟨square 0 0, [1, 1], [1, 1]⟩ : Pattern).search (fun _ => 0) steps).done = false := by
  refine ⟨by decide +kernel, fun steps => ?_⟩
  have key : ∀ k t, onPlateau t → (patLoop (fun _ => 0) [1, 1] k t).done = false := by
    intro k
    induction k with
    | zero => exact fun t h => h.2.2.1
    | succ k ih =>
      intro t h
      have h' := flat_iter h
      unfold patLoop
      dsimp only
      rw [h'.2.2.1]
      exact ih _ h'
  exact key steps _ ⟨rfl, rfl, rfl, Or.inl ⟨rfl, Or.inl rfl⟩⟩

/-! ## Objects which hold parameters -/

/-- **C58, names.** A parameter is found under the name it was added with, and adding it doesn't change what other names stand for. -/
theorem names_found (s : Named) (name : String) (p : Param) :
    (s.push name p).at name = some s.params.length ∧ (s.push name p).params[s.params.length]? = some p ∧ (∀ other, other ≠ name → (s.push name p).at other = s.at other) ∧
      ∀ i, i < s.params.length → (s.push name p).params[i]? = s.params[i]? := by
  refine ⟨by simp [Named.push, Named.at], by simp [Named.push], fun other h => by simp [Named.push, Named.at, h], fun i hi => ?_⟩
  simp only [Named.push]
  rw [List.getElem?_append_left hi]

/-- **C58, negation.** An unknown name stands for the first parameter, unless the object is constant - and is known from then on. -/
theorem typo (s : Named) (name : String) (h : s.at name = none) : (s.ref name).2 = 0 ∧ (s.ref name).1.at name = some 0 ∧ (s.ref name).1.params = s.params := by
  have h' : s.names name = none := h
  simp [Named.ref, h', Named.at]

/-- **C58, copies.** A copied object has the same values, and changing it leaves the original alone. -/
theorem copy_independent (h : Heap) (a : List Nat) (ha : ∀ x ∈ a, x < h.next) :
    (∀ i, i < a.length → (h.copy a).1.get (h.copy a).2 i = h.get a i) ∧
    ∀ i s k, k < a.length → ((h.copy a).1.add (h.copy a).2 i s).get a k = h.get a k := by
  have hk : ∀ k, k < a.length → a.getD k 0 < h.next := by
    intro k hk
    rw [List.getD_eq_getElem?_getD, List.getElem?_eq_getElem hk]
    exact ha _ (List.getElem_mem hk)
  constructor
  · intro i hi
    have e : (h.copy a).2.getD i 0 = h.next + i := by
      simp [Heap.copy, hi]
    unfold Heap.get
    rw [e]
    simp [Heap.copy, hi]
  · intro i s k hk'
    have hn := hk k hk'
    unfold Heap.get Heap.add
    dsimp only
    have : ¬ (i < (h.copy a).2.length ∧ a.getD k 0 = (h.copy a).2.getD i 0) := by
      rintro ⟨h1, h2⟩
      have hi : i < a.length := by simpa [Heap.copy] using h1
      have e : (h.copy a).2.getD i 0 = h.next + i := by simp [Heap.copy, hi]
      omega
    rw [if_neg this]
    simp only [Heap.copy]
    rw [if_neg (by omega)]

/-- **C58, negation.** An object which was assigned another one shares its parameters: changing one of them changes both. -/
theorem assign_aliases (h : Heap) (a : List Nat) (i : Nat) (hi : i < a.length) (s : ℚ) : ((h.assign a).1.add (h.assign a).2 i s).get a i = (h.get a i).add s := by
  simp [Heap.assign, Heap.get, Heap.add, hi]

/-- the original changes from the first element to the second -/
example (h : Heap) (h0 : h.cells 0 = DSet.make 3) : ((h.assign [0]).1.add (h.assign [0]).2 0 1).get [0] 0 = .dset ⟨3, 1, some 1⟩ := by
  rw [assign_aliases h [0] 0 (by decide)]
  have : h.get [0] 0 = DSet.make 3 := h0
  rw [this]
  decide +kernel

end LGD.C58
