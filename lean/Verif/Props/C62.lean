import Verif.Mesh.Polytope

/-!
# C62: ConvexPolytope and VoronoiMesher
-/

namespace LGD.C62
open LGD.Mesh

/-! ## Insertion of half-planes -/

/-- strictly inside of the simulation space -/
def Inner (S p : V) : Prop := 0 < p.x ∧ p.x < S.x ∧ 0 < p.y ∧ p.y < S.y

theorem closed_of_open {L L' : List Plane} {w : V} (hw : Open L' w) (h : ∀ p, Open L' p → Open L p) {p : V} (hp : Closed L' p) : Closed L p := by
  intro e he
  have key : ∀ t : ℚ, 0 < t → t ≤ 1 → 0 < e.val p + t * (w.sub p).dot e.dir := by
    intro t h0 h1
    rw [← val_ray]
    refine h _ (fun f hf => ?_) e he
    have a := hp f hf
    have b := hw f hf
    rw [val_ray]
    have : f.val w = f.val p + 1 * (w.sub p).dot f.dir := by
      rw [← val_ray]
      congr 1
      simp only [ray, V.add, V.smul, V.sub]
      refine V.ext ?_ ?_ <;> simp
    rw [this] at b
    have : 0 < t * (f.val p + 1 * (w.sub p).dot f.dir) := mul_pos h0 b
    have : 0 ≤ (1 - t) * f.val p := mul_nonneg (by linarith) a
    linarith
  by_contra hneg
  have hneg : e.val p < 0 := lt_of_not_ge hneg
  have h1 := key 1 one_pos (le_refl _)
  have hd : 0 < (w.sub p).dot e.dir := by linarith
  have h2 := key (min 1 (-e.val p / (w.sub p).dot e.dir)) (lt_min one_pos (div_pos (by linarith) hd)) (min_le_left _ _)
  have h3 : min 1 (-e.val p / (w.sub p).dot e.dir) * (w.sub p).dot e.dir ≤ -e.val p / (w.sub p).dot e.dir * (w.sub p).dot e.dir := mul_le_mul_of_nonneg_right (min_le_right _ _) (le_of_lt hd)
  rw [div_mul_cancel₀ _ (ne_of_gt hd)] at h3
  linarith

/-- state of a polytope after insertion of the planes `es`, all of which contain `w` -/
structure Good (S w : V) (es : List Plane) (P : Poly) : Prop where
  cuts : P.cuts = cutPoints S P.limits
  inner : Open P.limits w
  bounded : Bounded S P.limits
  edges : ∀ e ∈ P.limits, ∃ q, Closed P.limits q ∧ e.val q = 0
  iff : ∀ p, Open P.limits p ↔ Inner S p ∧ ∀ e ∈ es, 0 < e.val p

theorem make_good (center S w : V) (hw : Inner S w) : Good S w [] (Poly.make center S) := by
  obtain ⟨w1, w2, w3, w4⟩ := hw
  have hval : ∀ p : V, (∀ e ∈ (Poly.make center S).limits, 0 < e.val p) ↔ Inner S p := by
    intro p
    simp only [Poly.make, List.mem_cons, List.not_mem_nil, or_false, forall_eq_or_imp, forall_eq, Plane.val, V.sub, V.dot, Inner]
    constructor
    · rintro ⟨a, b, c, d⟩
      exact ⟨by linarith, by linarith, by linarith, by linarith⟩
    · rintro ⟨a, b, c, d⟩
      exact ⟨by linarith, by linarith, by linarith, by linarith⟩
  have hclosed : ∀ p : V, Closed (Poly.make center S).limits p ↔ InBox S p := by
    intro p
    unfold Closed
    simp only [Poly.make, List.mem_cons, List.not_mem_nil, or_false, forall_eq_or_imp, forall_eq, Plane.val, V.sub, V.dot, InBox]
    constructor
    · rintro ⟨a, b, c, d⟩
      exact ⟨by linarith, by linarith, by linarith, by linarith⟩
    · rintro ⟨a, b, c, d⟩
      exact ⟨by linarith, by linarith, by linarith, by linarith⟩
  refine ⟨rfl, (hval w).2 ⟨w1, w2, w3, w4⟩, fun p hp => (hclosed p).1 hp, ?_, fun p => ?_⟩
  · intro e he
    simp only [Poly.make, List.mem_cons, List.not_mem_nil, or_false] at he
    rcases he with rfl | rfl | rfl | rfl
    · exact ⟨⟨w.x, 0⟩, (hclosed _).2 ⟨le_of_lt w1, le_of_lt w2, le_refl _, le_of_lt (w3.trans w4)⟩, by simp [Plane.val, V.sub, V.dot]⟩
    · exact ⟨⟨0, w.y⟩, (hclosed _).2 ⟨le_refl _, le_of_lt (w1.trans w2), le_of_lt w3, le_of_lt w4⟩, by simp [Plane.val, V.sub, V.dot]⟩
    · exact ⟨⟨S.x, w.y⟩, (hclosed _).2 ⟨le_of_lt (w1.trans w2), le_refl _, le_of_lt w3, le_of_lt w4⟩, by simp [Plane.val, V.sub, V.dot]⟩
    · exact ⟨⟨w.x, S.y⟩, (hclosed _).2 ⟨le_of_lt w1, le_of_lt w2, le_of_lt (w3.trans w4), le_refl _⟩, by simp [Plane.val, V.sub, V.dot]⟩
  · constructor
    · exact fun h => ⟨(hval p).1 h, by simp⟩
    · exact fun h => (hval p).2 h.1

theorem same_val {a b : Plane} (h : a.same b = true) (p : V) : a.val p = b.val p := by
  unfold Plane.same at h
  simp only [Bool.and_eq_true, decide_eq_true_eq] at h
  unfold Plane.val
  rw [h.1, h.2]

/-- limits which remain -/
theorem mem_kept (S : V) (L : List Plane) (e f : Plane) :
    let below := (cutPoints S L).map fun v => (decide (e.val v.1 ≤ 0), decide (e.val v.2 ≤ 0))
    f ∈ ((L.zip below).filter fun l => !(l.2.1 && l.2.2)).map Prod.fst ↔ ∃ i, L[i]? = some f ∧ ¬ (e.val (cutPair S L i f).1 ≤ 0 ∧ e.val (cutPair S L i f).2 ≤ 0) := by
  intro below
  have hb : ∀ i f, L[i]? = some f → below[i]? = some (decide (e.val (cutPair S L i f).1 ≤ 0), decide (e.val (cutPair S L i f).2 ≤ 0)) := by
    intro i f hi
    simp [below, cutPoints, hi]
  rw [List.mem_map]
  constructor
  · rintro ⟨⟨g, b⟩, hm, rfl⟩
    obtain ⟨hm, hk⟩ := List.mem_filter.1 hm
    obtain ⟨i, hi⟩ := List.mem_iff_getElem?.1 hm
    rw [List.getElem?_zip_eq_some] at hi
    obtain ⟨h1, h2⟩ := hi
    refine ⟨i, h1, ?_⟩
    rw [hb i g h1] at h2
    cases h2
    rw [not_and_or]
    simpa using hk
  · rintro ⟨i, hi, hk⟩
    refine ⟨(f, _), List.mem_filter.2 ⟨List.mem_iff_getElem?.2 ⟨i, List.getElem?_zip_eq_some.2 ⟨hi, hb i f hi⟩⟩, ?_⟩, rfl⟩
    rw [not_and_or] at hk
    simpa using hk

/-- the new limits: some plane is superfluous, or those remain which aren't cut off completely -/
theorem insert_cases {S : V} {P : Poly} (hc : P.cuts = cutPoints S P.limits) (e : Plane) :
    (∃ l ∈ P.limits, e.same l = true ∧ P.insert S e = P) ∨
    ((∀ v ∈ cutPoints S P.limits, 0 < e.val v.1 ∧ 0 < e.val v.2) ∧ P.insert S e = P) ∨
    ((∃ v ∈ cutPoints S P.limits, e.val v.1 ≤ 0 ∨ e.val v.2 ≤ 0) ∧ (P.insert S e).cuts = cutPoints S (P.insert S e).limits ∧
      ∀ f, f ∈ (P.insert S e).limits ↔ (∃ i, P.limits[i]? = some f ∧ ¬ (e.val (cutPair S P.limits i f).1 ≤ 0 ∧ e.val (cutPair S P.limits i f).2 ≤ 0)) ∨ f = e) := by
  unfold Poly.insert
  by_cases hs : (P.limits.any fun l => e.same l) = true
  · left
    rw [if_pos hs]
    obtain ⟨l, hl, h⟩ := List.any_eq_true.1 hs
    exact ⟨l, hl, h, rfl⟩
  · right
    rw [if_neg hs]
    dsimp only
    rw [hc]
    have hk := mem_kept S P.limits e
    dsimp only at hk
    generalize hbl : (cutPoints S P.limits).map (fun v => (decide (e.val v.1 ≤ 0), decide (e.val v.2 ≤ 0))) = below at *
    by_cases hsup : (below.all fun b => !(b.1 || b.2)) = true
    · left
      have hall : ∀ v ∈ cutPoints S P.limits, 0 < e.val v.1 ∧ 0 < e.val v.2 := by
        intro v hv
        have := List.all_eq_true.1 hsup (decide (e.val v.1 ≤ 0), decide (e.val v.2 ≤ 0)) (by rw [← hbl]; exact List.mem_map_of_mem hv)
        simpa using this
      have hdel : (below.any fun b => b.1 && b.2) = false := by
        rw [← Bool.not_eq_true, List.any_eq_true]
        rintro ⟨b, hb, h⟩
        have := List.all_eq_true.1 hsup b hb
        simp only [Bool.and_eq_true] at h
        rw [h.1] at this
        simp at this
      refine ⟨hall, ?_⟩
      rw [hdel, hsup]
      simp only [Bool.not_true, Bool.or_self, Bool.false_eq_true, if_false, if_true, List.append_nil]
      cases P
      simp only at hc
      rw [hc]
    · right
      refine ⟨?_, ?_⟩
      · by_contra hno
        apply hsup
        rw [List.all_eq_true]
        intro b hb
        rw [← hbl] at hb
        obtain ⟨v, hv, rfl⟩ := List.mem_map.1 hb
        have : ¬ (e.val v.1 ≤ 0 ∨ e.val v.2 ≤ 0) := fun h => hno ⟨v, hv, h⟩
        simpa [not_or] using this
      · rw [Bool.not_eq_true] at hsup
        rw [hsup]
        simp only [Bool.not_false, Bool.or_true, if_true, Bool.false_eq_true, if_false]
        refine ⟨trivial, fun f => ?_⟩
        rw [List.mem_append, List.mem_singleton, ← hk f]
        refine or_congr ?_ Iff.rfl
        by_cases hdel : (below.any fun b => b.1 && b.2) = true
        · rw [if_pos hdel]
        · rw [if_neg hdel, hk f]
          constructor
          · intro hf
            obtain ⟨i, hi⟩ := List.mem_iff_getElem?.1 hf
            refine ⟨i, hi, fun h => hdel (List.any_eq_true.2 ⟨(decide (e.val (cutPair S P.limits i f).1 ≤ 0), decide (e.val (cutPair S P.limits i f).2 ≤ 0)), ?_, by simp [h]⟩)⟩
            rw [← hbl]
            exact List.mem_map.2 ⟨_, mem_cutPoints hi, rfl⟩
          · rintro ⟨i, hi, -⟩
            exact List.mem_of_getElem? hi

/-- points between two others -/
theorem val_seg (e : Plane) (p q : V) (t : ℚ) : e.val (ray p (q.sub p) t) = (1 - t) * e.val p + t * e.val q := by
  simp only [Plane.val, ray, V.add, V.smul, V.sub, V.dot]
  ring

theorem insert_good {S w : V} {es : List Plane} {P : Poly} (hP : Good S w es P) (e : Plane) (he : 0 < e.val w) : Good S w (es ++ [e]) (P.insert S e) := by
  have happ : ∀ p, (∀ f ∈ es ++ [e], 0 < f.val p) ↔ (∀ f ∈ es, 0 < f.val p) ∧ 0 < e.val p := by
    intro p
    simp [or_imp, forall_and]
  rcases insert_cases hP.cuts e with ⟨l, hl, hs, hi⟩ | ⟨hall, hi⟩ | ⟨⟨v, hv, hvb⟩, hcuts, hmem⟩
  · rw [hi]
    refine ⟨hP.cuts, hP.inner, hP.bounded, hP.edges, fun p => ?_⟩
    rw [happ, ← and_assoc, ← hP.iff p]
    refine ⟨fun h => ⟨h, ?_⟩, And.left⟩
    rw [same_val hs]
    exact h l hl
  · rw [hi]
    refine ⟨hP.cuts, hP.inner, hP.bounded, hP.edges, fun p => ?_⟩
    rw [happ, ← and_assoc, ← hP.iff p]
    refine ⟨fun h => ⟨h, ?_⟩, And.left⟩
    obtain ⟨v, hv, hvp⟩ := hull hP.inner hP.bounded h.closed e.dir
    obtain ⟨h1, h2⟩ := hall v hv
    rw [val_dot] at h1 h2 ⊢
    rcases hvp with hvp | hvp <;> linarith
  · have hsub : ∀ p, Open (P.insert S e).limits p → Open P.limits p := by
      intro p hp
      have hep : 0 < e.val p := hp e ((hmem e).2 (Or.inr rfl))
      by_contra hno
      obtain ⟨f, hf, hfp⟩ : ∃ f ∈ P.limits, f.val p ≤ 0 := by
        unfold Open at hno
        by_contra h
        exact hno fun f hf => lt_of_not_ge fun h' => h ⟨f, hf, h'⟩
      -- first plane hit on the way from `w` to `p`
      have hdot : ∀ f : Plane, f.val p = f.val w + (p.sub w).dot f.dir := by
        intro f
        simp only [Plane.val, V.sub, V.dot]
        ring
      have hfw := hP.inner f hf
      obtain ⟨s, hs, g, hg, hgd, hgv, hc⟩ := exit (u := p.sub w) hP.inner.closed ⟨f, hf, by have := hdot f; linarith⟩
      have hs1 : s ≤ 1 := by
        have := hc f hf
        rw [val_ray] at this
        have h1 := hdot f
        by_contra hlt
        have hneg : (p.sub w).dot f.dir < 0 := by linarith
        have := mul_lt_mul_of_neg_right (lt_of_not_ge hlt) hneg
        linarith
      obtain ⟨i, hi⟩ := List.mem_iff_getElem?.1 hg
      have hpos : 0 < e.val (ray w (p.sub w) s) := by
        rw [val_seg]
        rcases lt_or_eq_of_le hs1 with h | h
        · have := mul_pos (show 0 < 1 - s by linarith) he
          have := mul_nonneg hs (le_of_lt hep)
          linarith
        · subst h
          linarith
      obtain ⟨⟨a1, -, a3⟩, ⟨b1, -, b3⟩⟩ := edge hP.inner hP.bounded hi hc hgv
      by_cases hdel : e.val (cutPair S P.limits i g).1 ≤ 0 ∧ e.val (cutPair S P.limits i g).2 ≤ 0
      · -- between points below
        have := between (dir_ne hP.inner hg) b1 hgv a1 b3 a3 ⟨-e.dir.x, -e.dir.y⟩
        have hneg : ∀ x : V, V.dot ⟨-e.dir.x, -e.dir.y⟩ x = -e.dir.dot x := fun x => by simp only [V.dot]; ring
        rw [hneg, hneg, hneg] at this
        obtain ⟨d1, d2⟩ := hdel
        rw [val_dot] at d1 d2 hpos
        rcases this with this | this <;> linarith
      · have := hp g ((hmem g).2 (Or.inl ⟨i, hi, hdel⟩))
        have h1 := hdot g
        have h2 := hgv
        rw [val_ray] at h2
        have h3 := hP.inner g hg
        have : s * (p.sub w).dot g.dir ≥ 1 * (p.sub w).dot g.dir := mul_le_mul_of_nonpos_right hs1 (le_of_lt hgd)
        linarith
    have hinner : Open (P.insert S e).limits w := by
      intro f hf
      rcases (hmem f).1 hf with ⟨i, hi, -⟩ | rfl
      · exact hP.inner f (List.mem_of_getElem? hi)
      · exact he
    have hclosed : ∀ q, Closed P.limits q → 0 ≤ e.val q → Closed (P.insert S e).limits q := by
      intro q hq heq f hf
      rcases (hmem f).1 hf with ⟨i, hi, -⟩ | rfl
      · exact hq f (List.mem_of_getElem? hi)
      · exact heq
    refine ⟨hcuts, hinner, fun p hp => hP.bounded p (closed_of_open hinner hsub hp), ?_, fun p => ?_⟩
    · intro f hf
      rcases (hmem f).1 hf with ⟨i, hi, hn⟩ | rfl
      · obtain ⟨q, hq, hq0⟩ := hP.edges f (List.mem_of_getElem? hi)
        obtain ⟨⟨a1, a2, -⟩, ⟨b1, b2, -⟩⟩ := edge hP.inner hP.bounded hi hq hq0
        rw [not_and_or, not_le, not_le] at hn
        rcases hn with hn | hn
        · exact ⟨_, hclosed _ a2 (le_of_lt hn), a1⟩
        · exact ⟨_, hclosed _ b2 (le_of_lt hn), b1⟩
      · -- some cut point is below the new plane, `w` is above
        obtain ⟨u, hu, huf⟩ : ∃ u, Closed P.limits u ∧ f.val u ≤ 0 := by
          unfold cutPoints at hv
          obtain ⟨⟨g, i⟩, hgi, rfl⟩ := List.mem_map.1 hv
          rw [List.mem_zipIdx_iff_getElem?] at hgi
          obtain ⟨q, hq, hq0⟩ := hP.edges g (List.mem_of_getElem? hgi)
          obtain ⟨⟨-, a2, -⟩, ⟨-, b2, -⟩⟩ := edge hP.inner hP.bounded hgi hq hq0
          rcases hvb with h | h
          · exact ⟨_, a2, h⟩
          · exact ⟨_, b2, h⟩
        have hne : f.val w - f.val u ≠ 0 := by linarith
        have ht0 : 0 ≤ -f.val u / (f.val w - f.val u) := div_nonneg (by linarith) (by linarith)
        have ht1 : -f.val u / (f.val w - f.val u) ≤ 1 := by rw [div_le_one (by linarith)]; linarith
        have hz : f.val (ray u (w.sub u) (-f.val u / (f.val w - f.val u))) = 0 := by
          rw [val_seg]
          field_simp
          ring
        refine ⟨_, hclosed _ (fun g hg => ?_) (le_of_eq hz.symm), hz⟩
        rw [val_seg]
        have := mul_nonneg (show 0 ≤ 1 - -f.val u / (f.val w - f.val u) by linarith) (hu g hg)
        have := mul_nonneg ht0 (le_of_lt (hP.inner g hg))
        linarith
    · rw [happ, ← and_assoc, ← hP.iff p]
      refine ⟨fun h => ⟨hsub p h, h e ((hmem e).2 (Or.inr rfl))⟩, fun h f hf => ?_⟩
      rcases (hmem f).1 hf with ⟨i, hi, -⟩ | rfl
      · exact h.1 f (List.mem_of_getElem? hi)
      · exact h.2

theorem insert_all {S w : V} (es : List Plane) : ∀ (fs : List Plane) (P : Poly), Good S w fs P → (∀ e ∈ es, 0 < e.val w) → Good S w (fs ++ es) (es.foldl (Poly.insert S) P) := by
  induction es with
  | nil => intro fs P h _; rw [List.append_nil]; exact h
  | cons e es ih =>
    intro fs P h hs
    have := ih (fs ++ [e]) (P.insert S e) (insert_good h e (hs e (by simp))) (fun f hf => hs f (List.mem_cons_of_mem _ hf))
    rw [List.append_assoc] at this
    exact this

theorem includes_iff_open (P : Poly) (p : V) : P.includes p = true ↔ Open P.limits p := by
  unfold Poly.includes Open
  rw [List.all_eq_true]
  simp

/-- **C62, half-spaces.** After the insertion of any half-planes, in any order, whose intersection with the simulation space has an inner point, the polytope includes exactly the points of this intersection - although limits
are dropped. -/
theorem includes_iff (center S w : V) (es : List Plane) (hw : Inner S w) (hes : ∀ e ∈ es, 0 < e.val w) (p : V) :
    (es.foldl (Poly.insert S) (Poly.make center S)).includes p = true ↔ Inner S p ∧ ∀ e ∈ es, 0 < e.val p := by
  rw [includes_iff_open]
  exact (insert_all es [] _ (make_good center S w hw) hes).iff p

/-- the polytope after the insertion of planes -/
def build (center S : V) (es : List Plane) : Poly := es.foldl (Poly.insert S) (Poly.make center S)

theorem build_good {center S w : V} {es : List Plane} (hw : Inner S w) (hes : ∀ e ∈ es, 0 < e.val w) : Good S w es (build center S es) := insert_all es [] _ (make_good center S w hw) hes

/-- **C62, order.** The order in which half-planes are inserted doesn't matter. -/
theorem includes_perm (center S w : V) (es fs : List Plane) (h : es.Perm fs) (hw : Inner S w) (hes : ∀ e ∈ es, 0 < e.val w) (p : V) : (build center S es).includes p = (build center S fs).includes p := by
  rw [Bool.eq_iff_iff]
  unfold build
  rw [includes_iff center S w es hw hes, includes_iff center S w fs hw fun e he => hes e (h.mem_iff.2 he)]
  exact and_congr Iff.rfl ⟨fun h' e he => h' e (h.mem_iff.2 he), fun h' e he => h' e (h.mem_iff.1 he)⟩

/-! ## Corners -/

/-- both cut points of the `i`th limit -/
theorem Good.cut {S w : V} {es : List Plane} {P : Poly} (h : Good S w es P) {v : V × V} (hv : v ∈ P.cuts) :
    ∃ e ∈ P.limits, (e.val v.1 = 0 ∧ Closed P.limits v.1) ∧ (e.val v.2 = 0 ∧ Closed P.limits v.2) := by
  rw [h.cuts] at hv
  unfold cutPoints at hv
  obtain ⟨⟨g, i⟩, hgi, rfl⟩ := List.mem_map.1 hv
  rw [List.mem_zipIdx_iff_getElem?] at hgi
  obtain ⟨q, hq, hq0⟩ := h.edges g (List.mem_of_getElem? hgi)
  obtain ⟨⟨a1, a2, -⟩, ⟨b1, b2, -⟩⟩ := edge h.inner h.bounded hgi hq hq0
  exact ⟨g, List.mem_of_getElem? hgi, ⟨a1, a2⟩, ⟨b1, b2⟩⟩

theorem box_ne_far {S v : V} (h : InBox S v) : v ≠ farAway := by
  rintro rfl
  have := h.1
  simp only [farAway] at this
  linarith

/-- all corners -/
def corners (P : Poly) : List V := P.cuts.flatMap fun v => [v.1, v.2]

theorem mem_corners {P : Poly} {x : V} : x ∈ corners P ↔ ∃ v ∈ P.cuts, x = v.1 ∨ x = v.2 := by
  unfold corners
  simp [List.mem_flatMap]

theorem Good.corner {S w : V} {es : List Plane} {P : Poly} (h : Good S w es P) {x : V} (hx : x ∈ corners P) : Closed P.limits x ∧ (∃ e ∈ P.limits, e.val x = 0) ∧ InBox S x ∧ x ≠ farAway := by
  obtain ⟨v, hv, hx⟩ := mem_corners.1 hx
  obtain ⟨e, he, ⟨a1, a2⟩, ⟨b1, b2⟩⟩ := h.cut hv
  rcases hx with rfl | rfl
  · exact ⟨a2, ⟨e, he, a1⟩, h.bounded _ a2, box_ne_far (h.bounded _ a2)⟩
  · exact ⟨b2, ⟨e, he, b1⟩, h.bounded _ b2, box_ne_far (h.bounded _ b2)⟩

theorem Good.hull {S w : V} {es : List Plane} {P : Poly} (h : Good S w es P) {p : V} (hp : Closed P.limits p) (n : V) : ∃ x ∈ corners P, n.dot x ≤ n.dot p := by
  obtain ⟨v, hv, hvp⟩ := Mesh.hull h.inner h.bounded hp n
  rw [← h.cuts] at hv
  rcases hvp with hvp | hvp
  · exact ⟨v.1, mem_corners.2 ⟨v, hv, Or.inl rfl⟩, hvp⟩
  · exact ⟨v.2, mem_corners.2 ⟨v, hv, Or.inr rfl⟩, hvp⟩

/-- closed version of `Good.iff` -/
theorem Good.closed_iff {S w : V} {es : List Plane} {P : Poly} (h : Good S w es P) (hw : Inner S w) (hes : ∀ e ∈ es, 0 < e.val w) (p : V) : Closed P.limits p ↔ InBox S p ∧ ∀ e ∈ es, 0 ≤ e.val p := by
  have hmk := make_good w S w hw
  constructor
  · intro hp
    exact ⟨h.bounded p hp, closed_of_open h.inner (fun q hq => ((h.iff q).1 hq).2) hp⟩
  · rintro ⟨h1, h2⟩
    refine closed_of_open (L' := (Poly.make w S).limits ++ es) (w := w) ?_ ?_ ?_
    · intro e he
      rcases List.mem_append.1 he with he | he
      · exact hmk.inner e he
      · exact hes e he
    · intro q hq
      refine (h.iff q).2 ⟨((hmk.iff q).1 fun e he => hq e (List.mem_append_left _ he)).1, fun e he => hq e (List.mem_append_right _ he)⟩
    · intro e he
      rcases List.mem_append.1 he with he | he
      · obtain ⟨b1, b2, b3, b4⟩ := h1
        simp only [Poly.make, List.mem_cons, List.not_mem_nil, or_false] at he
        rcases he with rfl | rfl | rfl | rfl <;> simp only [Plane.val, V.sub, V.dot] <;> linarith
      · exact h2 e he

/-- **C62, corners.** All cut points are valid, so that `getShape()` doesn't throw "invalid cut point". They are points of the (closed) intersection, on the boundary, and the intersection is in their convex hull: no linear
function has a smaller value than in the corners. -/
theorem corners_spec (center S w : V) (es : List Plane) (hw : Inner S w) (hes : ∀ e ∈ es, 0 < e.val w) :
    (∀ x ∈ corners (build center S es), x ≠ farAway ∧ (InBox S x ∧ ∀ e ∈ es, 0 ≤ e.val x) ∧ (build center S es).includes x = false) ∧
    ∀ p, InBox S p → (∀ e ∈ es, 0 ≤ e.val p) → ∀ n : V, ∃ x ∈ corners (build center S es), n.dot x ≤ n.dot p := by
  have h := build_good (center := center) hw hes
  refine ⟨fun x hx => ?_, fun p h1 h2 n => h.hull ((h.closed_iff hw hes p).2 ⟨h1, h2⟩) n⟩
  obtain ⟨a, ⟨e, he, b⟩, -, d⟩ := h.corner hx
  refine ⟨d, (h.closed_iff hw hes x).1 a, ?_⟩
  rw [← Bool.not_eq_true, includes_iff_open]
  intro ho
  have := ho e he
  linarith

/-! ## Diameter -/

theorem extent_bounds (S : V) (cuts : List (V × V)) :
    (∀ x ∈ cuts.flatMap fun v => [v.1, v.2], x ≠ farAway → (extent S cuts).1.x ≤ x.x ∧ (extent S cuts).1.y ≤ x.y ∧ x.x ≤ (extent S cuts).2.x ∧ x.y ≤ (extent S cuts).2.y) ∧
    ((extent S cuts).1.x ≤ S.x ∧ (extent S cuts).1.y ≤ S.y ∧ -S.x ≤ (extent S cuts).2.x ∧ -S.y ≤ (extent S cuts).2.y) := by
  unfold extent
  generalize (cuts.flatMap fun v => [v.1, v.2]) = l
  induction l using List.reverseRecOn with
  | nil => simp
  | append_singleton l a ih =>
    rw [List.filter_append, List.foldl_append]
    by_cases ha : a = farAway
    · have : [a].filter (fun v => decide (v ≠ farAway)) = [] := by simp [ha]
      rw [this, List.foldl_nil]
      refine ⟨fun x hx hf => ?_, ih.2⟩
      rcases List.mem_append.1 hx with hx | hx
      · exact ih.1 x hx hf
      · exact absurd ((List.mem_singleton.1 hx).trans ha) hf
    · have : [a].filter (fun v => decide (v ≠ farAway)) = [a] := by simp [ha]
      rw [this]
      simp only [List.foldl_cons, List.foldl_nil]
      obtain ⟨i1, i2, i3, i4, i5⟩ := ih
      refine ⟨fun x hx hf => ?_, (min_le_right _ _).trans i2, (min_le_right _ _).trans i3, i4.trans (le_max_right _ _), i5.trans (le_max_right _ _)⟩
      rcases List.mem_append.1 hx with hx | hx
      · obtain ⟨j1, j2, j3, j4⟩ := i1 x hx hf
        exact ⟨(min_le_right _ _).trans j1, (min_le_right _ _).trans j2, j3.trans (le_max_right _ _), j4.trans (le_max_right _ _)⟩
      · rw [List.mem_singleton.1 hx]
        exact ⟨min_le_left _ _, min_le_left _ _, le_max_left _ _, le_max_left _ _⟩

theorem extent_le (S : V) (cuts : List (V × V)) (lo hi : V) (h : ∀ x ∈ cuts.flatMap fun v => [v.1, v.2], x ≠ farAway → lo.x ≤ x.x ∧ lo.y ≤ x.y ∧ x.x ≤ hi.x ∧ x.y ≤ hi.y)
    (h0 : lo.x ≤ S.x ∧ lo.y ≤ S.y ∧ -S.x ≤ hi.x ∧ -S.y ≤ hi.y) : lo.x ≤ (extent S cuts).1.x ∧ lo.y ≤ (extent S cuts).1.y ∧ (extent S cuts).2.x ≤ hi.x ∧ (extent S cuts).2.y ≤ hi.y := by
  unfold extent
  generalize (cuts.flatMap fun v => [v.1, v.2]) = l at *
  induction l using List.reverseRecOn with
  | nil => simpa using h0
  | append_singleton l a ih =>
    have i := ih fun x hx hf => h x (List.mem_append_left _ hx) hf
    rw [List.filter_append, List.foldl_append]
    by_cases ha : a = farAway
    · have : [a].filter (fun v => decide (v ≠ farAway)) = [] := by simp [ha]
      rw [this, List.foldl_nil]
      exact i
    · have : [a].filter (fun v => decide (v ≠ farAway)) = [a] := by simp [ha]
      rw [this]
      simp only [List.foldl_cons, List.foldl_nil]
      obtain ⟨j1, j2, j3, j4⟩ := h a (List.mem_append_right _ (by simp)) ha
      obtain ⟨i1, i2, i3, i4⟩ := i
      exact ⟨le_min j1 i1, le_min j2 i2, max_le j3 i3, max_le j4 i4⟩

theorem diameter_mono {S w : V} {es : List Plane} {P : Poly} (h : Good S w es P) {e : Plane} (he : 0 < e.val w) : diameter S (P.insert S e).cuts ≤ diameter S P.cuts := by
  have h' := insert_good h e he
  have hb := extent_bounds S P.cuts
  have hin : ∀ x ∈ corners (P.insert S e), Closed P.limits x := by
    intro x hx
    refine closed_of_open h'.inner (fun p hp => ?_) (h'.corner hx).1
    obtain ⟨h1, h2⟩ := (h'.iff p).1 hp
    exact (h.iff p).2 ⟨h1, fun f hf => h2 f (List.mem_append_left _ hf)⟩
  have bound : ∀ x, Closed P.limits x → (extent S P.cuts).1.x ≤ x.x ∧ (extent S P.cuts).1.y ≤ x.y ∧ x.x ≤ (extent S P.cuts).2.x ∧ x.y ≤ (extent S P.cuts).2.y := by
    intro x hx
    have key : ∀ n : V, ∃ y ∈ corners P, n.dot y ≤ n.dot x ∧ y ≠ farAway := fun n => by
      obtain ⟨y, hy, hn⟩ := h.hull hx n
      exact ⟨y, hy, hn, (h.corner hy).2.2.2⟩
    refine ⟨?_, ?_, ?_, ?_⟩
    · obtain ⟨y, hy, hn, hf⟩ := key ⟨1, 0⟩
      have := (hb.1 y hy hf).1
      simp only [V.dot] at hn
      linarith
    · obtain ⟨y, hy, hn, hf⟩ := key ⟨0, 1⟩
      have := (hb.1 y hy hf).2.1
      simp only [V.dot] at hn
      linarith
    · obtain ⟨y, hy, hn, hf⟩ := key ⟨-1, 0⟩
      have := (hb.1 y hy hf).2.2.1
      simp only [V.dot] at hn
      linarith
    · obtain ⟨y, hy, hn, hf⟩ := key ⟨0, -1⟩
      have := (hb.1 y hy hf).2.2.2
      simp only [V.dot] at hn
      linarith
  obtain ⟨l1, l2, l3, l4⟩ := extent_le S (P.insert S e).cuts (extent S P.cuts).1 (extent S P.cuts).2 (fun x hx _ => bound x (hin x hx)) hb.2
  unfold diameter
  exact max_le_max (by linarith) (by linarith)

theorem diameter_make (center S w : V) (hw : Inner S w) : diameter S (Poly.make center S).cuts ≤ max S.x S.y := by
  have h := make_good center S w hw
  obtain ⟨w1, w2, w3, w4⟩ := hw
  obtain ⟨l1, l2, l3, l4⟩ := extent_le S (Poly.make center S).cuts ⟨0, 0⟩ S (fun x hx _ => by
    obtain ⟨-, -, ⟨b1, b2, b3, b4⟩, -⟩ := h.corner hx
    exact ⟨b1, b3, b2, b4⟩) ⟨by linarith, by linarith, by linarith, by linarith⟩
  simp only at l1 l2
  unfold diameter
  exact max_le_max (by linarith) (by linarith)

/-- what users do: insert planes, and update the geometry -/
inductive Op where
  | plane (e : Plane)
  | update

def Op.run (S : V) (s : Poly × ℚ) : Op → Option (Poly × ℚ)
  | .plane e => some (s.1.insert S e, s.2)
  | .update => (updateDiameter S s.1.cuts s.2).map fun d => (s.1, d)

/-- **C62, diameter.** The diameter never increases: `updateGeometryData()` doesn't throw, whenever it is called. -/
theorem diameter_ok (center S w : V) (ops : List Op) (hw : Inner S w) (hops : ∀ e, Op.plane e ∈ ops → 0 < e.val w) : ∃ s, ops.foldlM (Op.run S) (Poly.make center S, max S.x S.y) = some s := by
  have key : ∀ (ops : List Op) (P : Poly) (d : ℚ) (es : List Plane), (∀ e, Op.plane e ∈ ops → 0 < e.val w) → Good S w es P → diameter S P.cuts ≤ d → ∃ s, ops.foldlM (Op.run S) (P, d) = some s := by
    intro ops
    induction ops with
    | nil => exact fun P d es _ _ _ => ⟨_, rfl⟩
    | cons o ops ih =>
      intro P d es ho hP hd
      rw [List.foldlM_cons]
      cases o with
      | plane e =>
        have he := ho e (by simp)
        exact ih (P.insert S e) d (es ++ [e]) (fun f hf => ho f (List.mem_cons_of_mem _ hf)) (insert_good hP e he) ((diameter_mono hP he).trans hd)
      | update =>
        have : Op.run S (P, d) .update = some (P, diameter S P.cuts) := by
          unfold Op.run updateDiameter
          dsimp only
          rw [if_neg (not_lt.2 hd)]
          rfl
        rw [this]
        exact ih P _ es (fun f hf => ho f (List.mem_cons_of_mem _ hf)) hP (le_refl _)
  exact key ops _ _ [] hops (make_good center S w hw) (diameter_make center S w hw)

/-! ## Voronoi cells -/

/-- square of the distance -/
def dist2 (a b : V) : ℚ := (a.x - b.x) * (a.x - b.x) + (a.y - b.y) * (a.y - b.y)

/-- the half-plane of all points which are closer to the center -/
theorem bisector_val (c q : V) (id : Nat) (p : V) : 2 * (bisector c q id).val p = dist2 p q - dist2 p c := by
  simp only [Plane.val, bisector, V.sub, V.add, V.smul, V.dot, dist2]
  ring

/-- the center, moved inwards a bit -/
theorem inner_point {S c : V} (hS : 0 < S.x ∧ 0 < S.y) (hc : InBox S c) (es : List Plane) (hes : ∀ e ∈ es, 0 < e.val c) : ∃ w, Inner S w ∧ ∀ e ∈ es, 0 < e.val w := by
  obtain ⟨c1, c2, c3, c4⟩ := hc
  have key : ∃ t0 : ℚ, 0 < t0 ∧ t0 ≤ 1 ∧ ∀ t, 0 < t → t ≤ t0 → ∀ e ∈ es, 0 < e.val (ray c (V.sub ⟨S.x / 2, S.y / 2⟩ c) t) := by
    induction es with
    | nil => exact ⟨1, one_pos, le_refl _, by simp⟩
    | cons e es ih =>
      obtain ⟨t0, h0, h1, h2⟩ := ih fun f hf => hes f (List.mem_cons_of_mem _ hf)
      have he := hes e (by simp)
      by_cases hd : 0 ≤ (V.sub ⟨S.x / 2, S.y / 2⟩ c).dot e.dir
      · refine ⟨t0, h0, h1, fun t ht ht0 f hf => ?_⟩
        rcases List.mem_cons.1 hf with rfl | hf
        · rw [val_ray]
          have := mul_nonneg (le_of_lt ht) hd
          linarith
        · exact h2 t ht ht0 f hf
      · have hd : (V.sub ⟨S.x / 2, S.y / 2⟩ c).dot e.dir < 0 := lt_of_not_ge hd
        generalize hk : (V.sub ⟨S.x / 2, S.y / 2⟩ c).dot e.dir = k at *
        refine ⟨min t0 (e.val c / (-2 * k)), lt_min h0 (div_pos he (by linarith)), (min_le_left _ _).trans h1, fun t ht htm f hf => ?_⟩
        rcases List.mem_cons.1 hf with rfl | hf
        · rw [val_ray, hk]
          have h3 : t ≤ f.val c / (-2 * k) := htm.trans (min_le_right _ _)
          rw [le_div_iff₀ (by linarith)] at h3
          linarith
        · exact h2 t ht (htm.trans (min_le_left _ _)) f hf
  obtain ⟨t0, h0, h1, h2⟩ := key
  refine ⟨_, ?_, h2 t0 h0 (le_refl _)⟩
  have m1 : 0 ≤ (1 - t0) * c.x := mul_nonneg (by linarith) c1
  have m2 : (1 - t0) * c.x ≤ (1 - t0) * S.x := mul_le_mul_of_nonneg_left c2 (by linarith)
  have m3 : 0 ≤ (1 - t0) * c.y := mul_nonneg (by linarith) c3
  have m4 : (1 - t0) * c.y ≤ (1 - t0) * S.y := mul_le_mul_of_nonneg_left c4 (by linarith)
  have m5 := mul_pos h0 hS.1
  have m6 := mul_pos h0 hS.2
  refine ⟨?_, ?_, ?_, ?_⟩ <;> simp only [ray, V.add, V.smul, V.sub] <;> linarith

/-- planes which separate a cell from others -/
def bisectors (cell : Site) (sites : List Site) : List Plane := (sites.filter fun s => decide (cell.center ≠ s.center)).map fun s => bisector cell.center s.center cell.id

theorem cellPoly_eq (S : V) (cell : Site) (sites : List Site) (hc : InBox S cell.center) (hs : ∀ s ∈ sites, 0 ≤ s.center.x ∧ 0 ≤ s.center.y) : cellPoly S cell sites = build cell.center S (bisectors cell sites) := by
  unfold cellPoly build bisectors
  generalize Poly.make cell.center S = P
  induction sites generalizing P with
  | nil => rfl
  | cons s sites ih =>
    rw [List.foldl_cons, ih fun t ht => hs t (List.mem_cons_of_mem _ ht)]
    by_cases h : cell.center ≠ s.center
    · rw [if_pos h, List.filter_cons_of_pos (by simpa using h), List.map_cons, List.foldl_cons]
      congr 1
      unfold Poly.insertPoint
      dsimp only
      obtain ⟨h1, h2⟩ := hs s (by simp)
      obtain ⟨c1, -, c3, -⟩ := hc
      rw [if_neg]
      simp only [bisector, V.sub, V.smul, V.add, not_or, not_lt]
      constructor <;> linarith
    · rw [if_neg h, List.filter_cons_of_neg (by simpa using h)]

theorem bisectors_center (cell : Site) (sites : List Site) : ∀ e ∈ bisectors cell sites, 0 < e.val cell.center := by
  intro e he
  obtain ⟨s, hs, rfl⟩ := List.mem_map.1 he
  obtain ⟨-, hne⟩ := List.mem_filter.1 hs
  have hne : cell.center ≠ s.center := by simpa using hne
  have h1 := bisector_val cell.center s.center cell.id cell.center
  have h2 : 0 < dist2 cell.center s.center := by
    unfold dist2
    by_cases hx : cell.center.x - s.center.x = 0
    · have hy : cell.center.y - s.center.y ≠ 0 := fun hy => hne (V.ext (by linarith) (by linarith))
      have := mul_self_pos.2 hy
      rw [hx]
      linarith
    · have := mul_self_pos.2 hx
      have := mul_self_nonneg (cell.center.y - s.center.y)
      linarith
  have h3 : dist2 cell.center cell.center = 0 := by unfold dist2; ring
  linarith

/-- **C62, Voronoi cells.** For all sets of points in the simulation space, the element of a cell includes exactly those points of the simulation space which are closer to the cell's center than to any other point. -/
theorem voronoi (S : V) (cell : Site) (sites : List Site) (hS : 0 < S.x ∧ 0 < S.y) (hc : InBox S cell.center) (hs : ∀ s ∈ sites, InBox S s.center) (p : V) :
    (cellPoly S cell sites).includes p = true ↔ Inner S p ∧ ∀ s ∈ sites, s.center ≠ cell.center → dist2 p cell.center < dist2 p s.center := by
  rw [cellPoly_eq S cell sites hc fun s h => ⟨(hs s h).1, (hs s h).2.2.1⟩]
  obtain ⟨w, hw, hwe⟩ := inner_point hS hc (bisectors cell sites) (bisectors_center cell sites)
  unfold build
  rw [includes_iff cell.center S w _ hw hwe]
  refine and_congr Iff.rfl ⟨fun h s hsm hne => ?_, fun h e he => ?_⟩
  · have := h (bisector cell.center s.center cell.id) (List.mem_map.2 ⟨s, List.mem_filter.2 ⟨hsm, by simpa using fun e => hne e.symm⟩, rfl⟩)
    have := bisector_val cell.center s.center cell.id p
    linarith
  · obtain ⟨s, hsf, rfl⟩ := List.mem_map.1 he
    obtain ⟨hsm, hne⟩ := List.mem_filter.1 hsf
    have := h s hsm fun e' => of_decide_eq_true hne e'.symm
    have := bisector_val cell.center s.center cell.id p
    linarith

/-- two cells don't overlap, and every point belongs to one, or is at the same distance from two -/
theorem voronoi_disjoint (S : V) (a b : Site) (sites : List Site) (hS : 0 < S.x ∧ 0 < S.y) (hs : ∀ s ∈ sites, InBox S s.center) (ha : a ∈ sites) (hb : b ∈ sites) (hab : a.center ≠ b.center) (p : V) :
    ¬ ((cellPoly S a sites).includes p = true ∧ (cellPoly S b sites).includes p = true) := by
  rintro ⟨h1, h2⟩
  have h1 := ((voronoi S a sites hS (hs a ha) hs p).1 h1).2 b hb (Ne.symm hab)
  have h2 := ((voronoi S b sites hS (hs b hb) hs p).1 h2).2 a ha hab
  linarith

theorem insert_limits (S : V) (P : Poly) (e : Plane) : ∀ l ∈ (P.insert S e).limits, l ∈ P.limits ∨ l = e := by
  intro l hl
  unfold Poly.insert at hl
  split at hl
  · exact Or.inl hl
  · dsimp only at hl
    have key : ∀ (d s : Bool) (k : List Plane), (∀ x ∈ k, x ∈ P.limits) → l ∈ ((if d then k else P.limits) ++ (if s then [] else [e])) → l ∈ P.limits ∨ l = e := by
      intro d s k hk h
      rcases List.mem_append.1 h with h | h
      · split at h
        · exact Or.inl (hk l h)
        · exact Or.inl h
      · split at h
        · cases h
        · exact Or.inr (List.mem_singleton.1 h)
    have hk : ∀ below : List (Bool × Bool), ∀ x ∈ ((P.limits.zip below).filter fun l => !(l.2.1 && l.2.2)).map Prod.fst, x ∈ P.limits := by
      intro below x hx
      obtain ⟨y, hy, rfl⟩ := List.mem_map.1 hx
      exact (List.of_mem_zip (List.mem_filter.1 hy).1).1
    split at hl
    · exact key _ _ _ (hk _) hl
    · exact key _ _ _ (hk _) hl

/-- **C62, negation.** Neighbors aren't recorded: the only IDs `fillGeometryData()` hands to a cell are its own and the default one. -/
theorem neighbors_lost (S : V) (cell : Site) (sites : List Site) : ∀ k ∈ neighborIDs (cellPoly S cell sites), k = cell.id ∨ k = 0 := by
  intro k hk
  obtain ⟨l, hl, rfl⟩ := List.mem_map.1 hk
  clear hk
  unfold cellPoly at hl
  have h0 : ∀ l ∈ (Poly.make cell.center S).limits, l.id = cell.id ∨ l.id = 0 := by
    intro l hl
    simp only [Poly.make, List.mem_cons, List.not_mem_nil, or_false] at hl
    rcases hl with rfl | rfl | rfl | rfl <;> exact Or.inr rfl
  generalize Poly.make cell.center S = P at *
  induction sites generalizing P with
  | nil => exact h0 l hl
  | cons s sites ih =>
    rw [List.foldl_cons] at hl
    refine ih _ hl ?_
    intro m hm
    split at hm
    · unfold Poly.insertPoint at hm
      dsimp only at hm
      split at hm
      · exact h0 m hm
      · rcases insert_limits S P _ m hm with h | h
        · exact h0 m h
        · exact Or.inl (by rw [h]; rfl)
    · exact h0 m hm

/-- **C62, negation.** Points are ignored if the middle between them and the center is left of, or below -1, even if they are closer to some of the simulation space. -/
theorem points_ignored : ∃ (S c q p : V) (id : Nat), Inner S c ∧ ((Poly.make c S).insertPoint c S (⟨0, 0⟩, ⟨0, 0⟩) q id).includes p = true ∧ dist2 p q < dist2 p c :=
  ⟨⟨10, 100⟩, ⟨5, 1⟩, ⟨-8, 31⟩, ⟨1, 40⟩, 7, by unfold Inner; norm_num, by decide +kernel, by unfold dist2; norm_num⟩

/-! ## Examples -/

/-- four cells in a square of size 8, one more far away -/
def sites : List Site := [⟨⟨2, 2⟩, 10⟩, ⟨⟨6, 2⟩, 11⟩, ⟨⟨2, 6⟩, 12⟩, ⟨⟨6, 6⟩, 13⟩, ⟨⟨8, 8⟩, 14⟩]

theorem sites_box : ∀ s ∈ sites, InBox ⟨8, 8⟩ s.center := by
  intro s hs
  simp only [sites, List.mem_cons, List.not_mem_nil, or_false] at hs
  rcases hs with rfl | rfl | rfl | rfl | rfl <;> (unfold InBox; norm_num)

/-- the element of the first cell has two new limits; those of the simulation space opposite to it are gone; corners -/
example : (cellPoly ⟨8, 8⟩ ⟨⟨2, 2⟩, 10⟩ sites).limits.map (fun l => (l.base, l.dir)) = [(⟨2, 0⟩, ⟨0, 1⟩), (⟨0, 2⟩, ⟨1, 0⟩), (⟨4, 2⟩, ⟨-4, 0⟩), (⟨2, 4⟩, ⟨0, -4⟩), (⟨4, 4⟩, ⟨-4, -4⟩)] := by decide +kernel

example : corners (cellPoly ⟨8, 8⟩ ⟨⟨2, 2⟩, 10⟩ sites) = [⟨4, 0⟩, ⟨0, 0⟩, ⟨0, 0⟩, ⟨0, 4⟩, ⟨4, 4⟩, ⟨4, 0⟩, ⟨0, 4⟩, ⟨4, 4⟩, ⟨4, 4⟩, ⟨4, 4⟩] := by decide +kernel

example : (cellPoly ⟨8, 8⟩ ⟨⟨2, 2⟩, 10⟩ sites).includes ⟨3, 1⟩ = true := by
  rw [voronoi ⟨8, 8⟩ ⟨⟨2, 2⟩, 10⟩ sites (by norm_num) (sites_box ⟨⟨2, 2⟩, 10⟩ (by simp [sites])) sites_box]
  refine ⟨by unfold Inner; norm_num, ?_⟩
  intro s hs hne
  simp only [sites, List.mem_cons, List.not_mem_nil, or_false] at hs
  rcases hs with rfl | rfl | rfl | rfl | rfl
  · exact absurd rfl hne
  all_goals (unfold dist2; norm_num)

/-- all neighbors of cell 10 are 10 or 0 -/
example : neighborIDs (cellPoly ⟨8, 8⟩ ⟨⟨2, 2⟩, 10⟩ sites) = [0, 0, 10, 10, 10] := by decide +kernel

/-- triangle -/
def slants : List Plane := [⟨⟨4, 4⟩, ⟨-1, -1⟩, 1⟩, ⟨⟨1, 0⟩, ⟨2, 1⟩, 2⟩]

example (p : V) : (build ⟨1, 1⟩ ⟨8, 8⟩ slants).includes p = true ↔ Inner ⟨8, 8⟩ p ∧ ∀ e ∈ slants, 0 < e.val p := by
  refine includes_iff ⟨1, 1⟩ ⟨8, 8⟩ ⟨2, 2⟩ slants (by unfold Inner; norm_num) ?_ p
  intro e he
  simp only [slants, List.mem_cons, List.not_mem_nil, or_false] at he
  rcases he with rfl | rfl <;> (simp only [Plane.val, V.sub, V.dot]; norm_num)

example : (build ⟨1, 1⟩ ⟨8, 8⟩ slants).includes ⟨5, 2⟩ = true ∧ (build ⟨1, 1⟩ ⟨8, 8⟩ slants).includes ⟨5, 4⟩ = false := by decide +kernel

def someOps : List Op := [.update, .plane ⟨⟨4, 4⟩, ⟨-1, -1⟩, 1⟩, .update, .plane ⟨⟨1, 0⟩, ⟨2, 1⟩, 2⟩, .update]

example : ∃ s, someOps.foldlM (Op.run ⟨8, 8⟩) (Poly.make ⟨1, 1⟩ ⟨8, 8⟩, max 8 8) = some s := by
  refine diameter_ok ⟨1, 1⟩ ⟨8, 8⟩ ⟨2, 2⟩ someOps (by unfold Inner; norm_num) ?_
  intro e he
  simp only [someOps, List.mem_cons, Op.plane.injEq, List.not_mem_nil, or_false, reduceCtorEq, false_or] at he
  rcases he with rfl | rfl <;> (simp only [Plane.val, V.sub, V.dot]; norm_num)

end LGD.C62
