import Verif.Props.C01
import Verif.Region.TopoExpandModel
import Verif.Region.SetOps
import Verif.Region.Expand

/-!
# C10 – `expandWithAdjacency` is the k-hop neighborhood
-/

namespace LGD.C10
open LGD.C01

/-- Spec: `b` can be reached from `a` by at most `k` edges. -/
inductive Reach (nb : Int → List Int) : Nat → Int → Int → Prop
  | refl (k : Nat) (a : Int) : Reach nb k a a
  | step (k : Nat) (a b c : Int) : Reach nb k a b → c ∈ nb b → Reach nb (k + 1) a c

theorem Reach.mono {nb : Int → List Int} {k : Nat} {a b : Int} (h : Reach nb k a b) : Reach nb (k + 1) a b := by
  induction h with
  | refl k a => exact .refl _ a
  | step k a b c _ hc ih => exact .step _ a b c ih hc

/-- node in a 1D region -/
def Has (idx : Idx) (x : Int) : Prop := RMem 0 idx (fun _ => x)

theorem has_iff (idx : Idx) (h : RegOK 0 idx) (c : Crd) : RMem 0 idx c ↔ Has idx (c 0) := by
  unfold Has
  refine RMem_congr h (fun k hk => ?_)
  have : k = 0 := by omega
  subst this; rfl

theorem has_insert (idx : Idx) (h : RegOK 0 idx) (i : Int) :
    ∃ r, regInsert 0 idx { origin := fun _ => i, endX := i + 1 } = some r ∧ RegOK 0 r ∧ ∀ x, Has r x ↔ Has idx x ∨ x = i := by
  obtain ⟨r, h1, h2, h3⟩ := regInsert_spec 0 idx { origin := fun _ => i, endX := i + 1 } h
  refine ⟨r, h1, h2, fun x => ?_⟩
  unfold Has
  rw [h3]
  refine or_congr Iff.rfl ?_
  constructor
  · rintro ⟨_, a, b⟩; simp only at a b; omega
  · rintro rfl; exact ⟨fun k a b => by omega, Int.le_refl _, by simp only; omega⟩

theorem adjNodes_spec (ret : Idx) (hr : RegOK 0 ret) (l : List Int) (add : Idx) (h : RegOK 0 add) :
    ∃ r, adjNodes ret l add = some r ∧ RegOK 0 r ∧ ∀ x, Has r x ↔ Has add x ∨ (x ∈ l ∧ ¬ Has ret x) := by
  induction l generalizing add with
  | nil => exact ⟨add, rfl, h, fun x => by simp⟩
  | cons i is ih =>
    obtain ⟨t, ht⟩ := hr
    obtain ⟨b, hb1, hb2⟩ := rep_countCoord ht (fun _ => i)
    have hbi : b = true ↔ Has ret i := by
      unfold Has RMem
      rw [hb1]; simp
    rw [adjNodes, hb1, Option.bind_some]
    by_cases hbt : b = true
    · rw [if_pos hbt]
      obtain ⟨r, h1, h2, h3⟩ := ih add h
      refine ⟨r, h1, h2, fun x => ?_⟩
      rw [h3, List.mem_cons]
      refine or_congr Iff.rfl ⟨fun ⟨p, q⟩ => ⟨Or.inr p, q⟩, fun ⟨p, q⟩ => ⟨p.resolve_left (fun e => q (e ▸ hbi.1 hbt)), q⟩⟩
    · rw [if_neg hbt]
      obtain ⟨a1, i1, i2, i3⟩ := has_insert add h i
      rw [i1, Option.bind_some]
      obtain ⟨r, h1, h2, h3⟩ := ih a1 i2
      refine ⟨r, h1, h2, fun x => ?_⟩
      rw [h3, i3, List.mem_cons]
      have hni : ¬ Has ret i := fun hh => hbt (hbi.2 hh)
      constructor
      · rintro ((p | rfl) | ⟨p, q⟩)
        · exact Or.inl p
        · exact Or.inr ⟨Or.inl rfl, hni⟩
        · exact Or.inr ⟨Or.inr p, q⟩
      · rintro (p | ⟨p | p, q⟩)
        · exact Or.inl (Or.inl p)
        · exact Or.inl (Or.inr p)
        · exact Or.inr ⟨p, q⟩

theorem adjXs_spec (nb : Int → List Int) (ret : Idx) (hr : RegOK 0 ret) (xs : List Int) (add : Idx) (h : RegOK 0 add) :
    ∃ r, adjXs nb ret xs add = some r ∧ RegOK 0 r ∧ ∀ y, Has r y ↔ Has add y ∨ ((∃ x ∈ xs, y ∈ nb x) ∧ ¬ Has ret y) := by
  induction xs generalizing add with
  | nil => exact ⟨add, rfl, h, fun y => by simp⟩
  | cons x xs ih =>
    obtain ⟨r1, a, b, d⟩ := adjNodes_spec ret hr (nb x) add h
    obtain ⟨r2, e, f, g⟩ := ih r1 b
    refine ⟨r2, by rw [adjXs, a, Option.bind_some, e], f, fun y => ?_⟩
    rw [g, d]
    constructor
    · rintro ((p | ⟨p, q⟩) | ⟨⟨z, p, p'⟩, q⟩)
      · exact Or.inl p
      · exact Or.inr ⟨⟨x, List.mem_cons_self .., p⟩, q⟩
      · exact Or.inr ⟨⟨z, List.mem_cons_of_mem _ p, p'⟩, q⟩
    · rintro (p | ⟨⟨z, p, p'⟩, q⟩)
      · exact Or.inl (Or.inl p)
      · rcases List.mem_cons.1 p with rfl | p
        · exact Or.inl (Or.inr ⟨p', q⟩)
        · exact Or.inr ⟨⟨z, p, p'⟩, q⟩

theorem mem_xsOf (s : Streak) (x : Int) : x ∈ xsOf s ↔ s.origin 0 ≤ x ∧ x < s.endX := by
  unfold xsOf
  rw [List.mem_map]
  constructor
  · rintro ⟨i, h, rfl⟩; have := List.mem_range.1 h; omega
  · rintro ⟨h1, h2⟩; exact ⟨(x - s.origin 0).toNat, List.mem_range.2 (by omega), by omega⟩

theorem adjPasses_spec (nb : Int → List Int) (S : Int → Prop) (w p : Nat) (ret new : Idx) (h1 : RegOK 0 ret) (h2 : RegOK 0 new)
    (hr : ∀ x, Has ret x ↔ ∃ a, S a ∧ Reach nb p a x) (hn : ∀ x, Has new x → Has ret x)
    (hf : ∀ x y, Has ret x → y ∈ nb x → Has new x ∨ Has ret y) :
    ∃ r, adjPasses nb w ret new = some r ∧ RegOK 0 r ∧ ∀ x, Has r x ↔ ∃ a, S a ∧ Reach nb (p + w) a x := by
  induction w generalizing p ret new with
  | zero => exact ⟨ret, rfl, h1, hr⟩
  | succ w ih =>
    obtain ⟨l, l1, _, l3⟩ := toVector_spec h2
    obtain ⟨add, a1, a2, a3⟩ := adjXs_spec nb ret h1 (l.flatMap xsOf) emptyIdx (regOK_empty 0)
    obtain ⟨ret', b1, b2, b3⟩ := regPlusAssign_spec 0 ret add h1 a2
    have hx : ∀ x, x ∈ l.flatMap xsOf ↔ Has new x := by
      intro x
      rw [List.mem_flatMap]
      unfold Has
      rw [l3.mem]
      constructor
      · rintro ⟨s, hs, hm⟩
        exact ⟨s, hs, fun k a b => by omega, (mem_xsOf s x).1 hm⟩
      · rintro ⟨s, hs, _, hm⟩
        exact ⟨s, hs, (mem_xsOf s x).2 hm⟩
    have hadd : ∀ y, Has add y ↔ (∃ x, Has new x ∧ y ∈ nb x) ∧ ¬ Has ret y := by
      intro y
      rw [a3]
      constructor
      · rintro (q | ⟨⟨x, q, q'⟩, q2⟩)
        · exact (regEmpty_mem 0 _ q).elim
        · exact ⟨⟨x, (hx x).1 q, q'⟩, q2⟩
      · rintro ⟨⟨x, q, q'⟩, q2⟩; exact Or.inr ⟨⟨x, (hx x).2 q, q'⟩, q2⟩
    have hret' : ∀ y, Has ret' y ↔ Has ret y ∨ Has add y := fun y => b3 _
    have key : ∀ y, Has ret' y ↔ ∃ a, S a ∧ Reach nb (p + 1) a y := by
      intro y
      rw [hret', hadd]
      constructor
      · rintro (q | ⟨⟨x, q, q'⟩, _⟩)
        · obtain ⟨a, ha, hra⟩ := (hr y).1 q; exact ⟨a, ha, hra.mono⟩
        · obtain ⟨a, ha, hra⟩ := (hr x).1 (hn x q); exact ⟨a, ha, .step p a x y hra q'⟩
      · rintro ⟨a, ha, hra⟩
        by_cases q : Has ret y
        · exact Or.inl q
        · cases hra with
          | refl => exact Or.inl ((hr _).2 ⟨_, ha, .refl p _⟩)
          | step _ _ b _ hb hy =>
            have hb' := (hr b).2 ⟨a, ha, hb⟩
            rcases hf b y hb' hy with q2 | q2
            · exact Or.inr ⟨⟨b, q2, hy⟩, q⟩
            · exact Or.inl q2
    obtain ⟨r, r1, r2, r3⟩ := ih (p + 1) ret' add b2 a2 key (fun x hx => (hret' x).2 (Or.inr hx)) (by
      intro x y hx hy
      rcases (hret' x).1 hx with q | q
      · rcases hf x y q hy with q2 | q2
        · by_cases q3 : Has ret y
          · exact Or.inr ((hret' y).2 (Or.inl q3))
          · exact Or.inr ((hret' y).2 (Or.inr ((hadd y).2 ⟨⟨x, q2, hy⟩, q3⟩)))
        · exact Or.inr ((hret' y).2 (Or.inl q2))
      · exact Or.inl q)
    refine ⟨r, ?_, r2, fun x => ?_⟩
    · rw [adjPasses, l1, Option.bind_some, a1, Option.bind_some, b1, Option.bind_some, r1]
    · rw [r3, show p + 1 + w = p + (w + 1) by omega]

/-- **C10.** For every 1D region, every adjacency (neighbor lists may have duplicates, self loops, cycles; edges need not be
symmetric) and every width, the result consists of exactly the nodes reachable by at most `width` edges. -/
theorem adjacency_khop (idx : Idx) (h : RegOK 0 idx) (width : Nat) (nb : Int → List Int) :
    ∃ r, expandWithAdjacency idx width nb = some r ∧ RegOK 0 r ∧
      ∀ x, RMem 0 r (fun _ => x) ↔ ∃ a, RMem 0 idx (fun _ => a) ∧ Reach nb width a x := by
  obtain ⟨r, h1, h2, h3⟩ := adjPasses_spec nb (Has idx) width 0 idx idx h h
    (fun x => ⟨fun hx => ⟨x, hx, .refl 0 x⟩, fun ⟨a, ha, hr⟩ => by cases hr; exact ha⟩) (fun _ hx => hx) (fun x _ hx _ => Or.inl hx)
  refine ⟨r, h1, h2, fun x => ?_⟩
  rw [Nat.zero_add] at h3
  exact h3 x

/-- Expanding in two steps is the same as expanding at once. -/
theorem adjacency_add (idx : Idx) (h : RegOK 0 idx) (v w : Nat) (nb : Int → List Int) :
    ∃ a b c, expandWithAdjacency idx v nb = some a ∧ expandWithAdjacency a w nb = some b ∧
      expandWithAdjacency idx (v + w) nb = some c ∧ regEq 0 b c = true := by
  obtain ⟨a, a1, a2, a3⟩ := adjacency_khop idx h v nb
  obtain ⟨b, b1, ⟨tb, b2⟩, b3⟩ := adjacency_khop a a2 w nb
  obtain ⟨c, c1, ⟨tc, c2⟩, c3⟩ := adjacency_khop idx h (v + w) nb
  refine ⟨a, b, c, a1, b1, c1, ?_⟩
  rw [rep_eq_iff b2 c2]
  intro x
  rw [has_iff b ⟨tb, b2⟩ x, has_iff c ⟨tc, c2⟩ x]
  generalize x 0 = x
  unfold Has
  rw [b3, c3]
  constructor
  · rintro ⟨y, hy, hr⟩
    obtain ⟨z, hz, hr'⟩ := (a3 y).1 hy
    refine ⟨z, hz, ?_⟩
    clear hy b3 c3 a3 a1 b1 c1 b2 c2
    induction hr with
    | refl k y =>

      induction k with
      | zero => exact hr'
      | succ k ih => exact ih.mono
    | step k y b c _ hc ih => exact .step _ _ _ _ (ih hr') hc
  · rintro ⟨z, hz, hr⟩
    have key : ∀ (k : Nat) (x : Int), Reach nb (v + k) z x → ∃ y, Reach nb v z y ∧ Reach nb k y x := by
      intro k
      induction k with
      | zero => intro x hx; exact ⟨x, hx, .refl 0 x⟩
      | succ k ih =>
        intro x hx
        cases hx with
        | refl => exact ⟨z, .refl v z, .refl _ z⟩
        | step _ _ b _ hb hc =>
          obtain ⟨y, h1, h2⟩ := ih b hb
          exact ⟨y, h1, .step _ _ _ _ h2 hc⟩
    obtain ⟨y, h1, h2⟩ := key w _ hr
    exact ⟨y, (a3 y).2 ⟨z, hz, h1⟩, h2⟩

/-! non-vacuity: a directed ring with a chord, start `{0}` -/

def ring : Int → List Int := fun x => if x = 3 then [0, 7, 7] else [x + 1]

example : (((C01.run 0 emptyIdx [.insert (mk2 0 0 1)]).bind (fun i => expandWithAdjacency i 4 ring)).bind (toVector 0)).map
    (List.map (fun s => (s.origin 0, s.endX))) = some [(0, 4), (7, 8)] := by decide +kernel

end LGD.C10
