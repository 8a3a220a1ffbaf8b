import Verif.Unstr.ReorderLemmas
import Verif.Props.C45

/-!
# Lemmas about the update of unstructured grids
-/

namespace LGD.Unstr

open LGD.Sell

variable {α V : Type}

/-- what the update function of the cell at position `q` gets to see -/
def Sees (C : Nat) (c : Sell V) (old : Store.Grid α) (q : Nat) (nb : List (α × V)) : Prop := ∃ ws, getRow C c q = some ws ∧ neighbors old ws = some nb

theorem updateLoop_ok {C : Nat} (hC : 0 < C) (f : α → α → List (α × V) → α) (c : Sell V) {old : Store.Grid α} {N : Nat} (hd : old.dim 0 = N) (hl : old.cells.length = N) (nb : Nat → List (α × V)) :
    ∀ (m p : Nat) (new : Store.Grid α), new.cells.length = N → p + m ≤ N → (∀ q, p ≤ q → q < p + m → Sees C c old q (nb q)) →
    ∃ new', updateLoop C f c old m (aMake C p) p new = some new' ∧ new'.dim = new.dim ∧ new'.edge = new.edge ∧ new'.cells.length = N ∧
      (∀ q, p ≤ q → q < p + m → ∃ stale own, old.cells[q]? = some own ∧ new'.cells[q]? = some (f stale own (nb q))) ∧ ∀ q, ¬ (p ≤ q ∧ q < p + m) → new'.cells[q]? = new.cells[q]? := by
  intro m
  induction m with
  | zero => intro p new h1 h2 h3; exact ⟨new, rfl, rfl, rfl, h1, fun q _ _ => by omega, fun q _ => rfl⟩
  | succ m ih =>
    intro p new h1 h2 h3
    obtain ⟨ws, s1, s2⟩ := h3 p (Nat.le_refl _) (by omega)
    have w := (C45.cell_weights hC c p 0).1
    rw [Function.iterate_zero, id_eq, Nat.add_zero, s1] at w
    have e1 : new.cells[p]? = some (new.cells[p]'(by omega)) := List.getElem?_eq_getElem _
    have e2 : old.cells[p]? = some (old.cells[p]'(by omega)) := List.getElem?_eq_getElem _
    unfold updateLoop
    rw [e1, Option.bind_some, w, Option.bind_some, show (aMake C p).x = p from rfl, cellRead_in hd (by omega), e2, Option.bind_some, s2, Option.bind_some, C45.inc_make hC]
    obtain ⟨new', k1, k2, k3, k4, k5, k6⟩ := ih (p + 1) { new with cells := new.cells.set p (f (new.cells[p]'(by omega)) (old.cells[p]'(by omega)) (nb p)) } (by simpa using h1) (by omega)
      (fun q hq hq' => h3 q (by omega) (by omega))
    refine ⟨new', k1, k2, k3, k4, fun q hq hq' => ?_, fun q hq => ?_⟩
    · by_cases h : q = p
      · subst h
        refine ⟨new.cells[q]'(by omega), _, e2, ?_⟩
        rw [k6 q (by omega)]
        exact List.getElem?_set_self (by omega)
      · exact k5 q (by omega) (by omega)
    · rw [k6 q (by omega)]
      exact List.getElem?_set_ne (by omega)

theorem updateAll_ok {C : Nat} (hC : 0 < C) (f : α → α → List (α × V) → α) (c : Sell V) {old : Store.Grid α} {N : Nat} (hd : old.dim 0 = N) (hl : old.cells.length = N) (nb : Nat → List (α × V)) :
    ∀ (ss : List Streak) (new : Store.Grid α), new.cells.length = N → (∀ s ∈ ss, s.origin 0 < s.endX ∧ 0 ≤ s.origin 0 ∧ s.endX ≤ N) → ss.Pairwise (fun s s' => s.endX < s'.origin 0) →
    (∀ s ∈ ss, ∀ q : Nat, s.origin 0 ≤ q → (q : Int) < s.endX → Sees C c old q (nb q)) →
    ∃ new', updateAll C f c old ss new = some new' ∧ new'.dim = new.dim ∧ new'.edge = new.edge ∧ new'.cells.length = N ∧
      (∀ q : Nat, (∃ s ∈ ss, s.origin 0 ≤ q ∧ (q : Int) < s.endX) → ∃ stale own, old.cells[q]? = some own ∧ new'.cells[q]? = some (f stale own (nb q))) ∧
      ∀ q : Nat, (¬ ∃ s ∈ ss, s.origin 0 ≤ q ∧ (q : Int) < s.endX) → new'.cells[q]? = new.cells[q]? := by
  intro ss
  induction ss with
  | nil => intro new h1 _ _ _; exact ⟨new, rfl, rfl, rfl, h1, fun q ⟨s, hs, _⟩ => by simp at hs, fun q _ => rfl⟩
  | cons s ss ih =>
    intro new h1 h2 h3 h4
    obtain ⟨a1, a2, a3⟩ := h2 s List.mem_cons_self
    rw [List.pairwise_cons] at h3
    obtain ⟨new1, k1, k2, k3, k4, k5, k6⟩ := updateLoop_ok hC f c hd hl nb (s.endX - s.origin 0).toNat (s.origin 0).toNat new h1 (by omega)
      (fun q hq hq' => h4 s List.mem_cons_self q (by omega) (by omega))
    obtain ⟨new', m1, m2, m3, m4, m5, m6⟩ := ih new1 k4 (fun s hs => h2 s (List.mem_cons_of_mem _ hs)) h3.2 (fun s hs => h4 s (List.mem_cons_of_mem _ hs))
    refine ⟨new', ?_, m2.trans k2, m3.trans k3, m4, fun q hq => ?_, fun q hq => ?_⟩
    · unfold updateAll updateStreak
      rw [if_pos ⟨a2, by omega⟩, k1, Option.bind_some, m1]
    · by_cases h : ∃ s ∈ ss, s.origin 0 ≤ q ∧ (q : Int) < s.endX
      · exact m5 q h
      · obtain ⟨t, ht, t1, t2⟩ := hq
        rcases List.mem_cons.1 ht with rfl | ht
        · obtain ⟨stale, own, e1, e2⟩ := k5 q (by omega) (by omega)
          exact ⟨stale, own, e1, by rw [m6 q h, e2]⟩
        · exact absurd ⟨t, ht, t1, t2⟩ h
    · rw [m6 q fun ⟨t, ht, hh⟩ => hq ⟨t, List.mem_cons_of_mem _ ht, hh⟩]
      exact k6 q fun hh => hq ⟨s, List.mem_cons_self, by omega, by omega⟩

/-- reading the neighbors -/
theorem neighbors_ok {N M : Nat} {ids : List Int} {ph : Int → Nat} {g : RGrid α V} (h : OK N M ids ph g) : ∀ (es : List (Entry V)), (∀ e ∈ es, e.1.2 ∈ ids) →
    ∃ nb, neighbors g.cells (es.map fun e => ((ph e.1.2 : Int), e.2)) = some nb ∧ nb.map (fun x => (some x.1, x.2)) = es.map fun e => (rGet g e.1.2, e.2) := by
  intro es
  induction es with
  | nil => intro _; exact ⟨[], rfl, rfl⟩
  | cons e es ih =>
    intro hm
    have he := hm e List.mem_cons_self
    obtain ⟨v, hv⟩ := h.get_some he
    obtain ⟨nb, h1, h2⟩ := ih fun e he => hm e (List.mem_cons_of_mem _ he)
    refine ⟨(v, e.2) :: nb, ?_, by rw [List.map_cons, List.map_cons, h2, hv]⟩
    rw [List.map_cons, neighbors, cellRead_in h.dim (h.lt _ he), ← h.get he, hv, Option.bind_some, h1]
    rfl

theorem neighbors_perm {old : Store.Grid α} {a b : List (Int × V)} (h : a.Perm b) : ∀ {nb : List (α × V)}, neighbors old a = some nb → ∃ nb', neighbors old b = some nb' ∧ nb'.Perm nb := by
  induction h with
  | nil => intro nb h; exact ⟨nb, h, List.Perm.refl _⟩
  | cons x _ ih =>
    intro nb h
    unfold neighbors at h
    obtain ⟨v, hv, h⟩ := Option.bind_eq_some_iff.1 h
    obtain ⟨r, hr, rfl⟩ := Option.map_eq_some_iff.1 h
    obtain ⟨r', hr', hp⟩ := ih hr
    exact ⟨(v, x.2) :: r', by unfold neighbors; rw [hv, Option.bind_some, hr']; rfl, hp.cons _⟩
  | swap x y l =>
    intro nb h
    unfold neighbors at h
    obtain ⟨v, hv, h⟩ := Option.bind_eq_some_iff.1 h
    obtain ⟨r, hr, rfl⟩ := Option.map_eq_some_iff.1 h
    unfold neighbors at hr
    obtain ⟨w, hw, hr⟩ := Option.bind_eq_some_iff.1 hr
    obtain ⟨r', hr', rfl⟩ := Option.map_eq_some_iff.1 hr
    refine ⟨(w, x.2) :: (v, y.2) :: r', ?_, List.Perm.swap _ _ _⟩
    unfold neighbors
    rw [hw, Option.bind_some]
    unfold neighbors
    rw [hv, Option.bind_some, hr']
    rfl
  | trans _ _ ih1 ih2 =>
    intro nb h
    obtain ⟨n1, h1, p1⟩ := ih1 h
    obtain ⟨n2, h2, p2⟩ := ih2 h1
    exact ⟨n2, h2, p2.trans p1⟩

/-- the matrix `k` of the grid holds the rows of `m` -/
def Rows (C k : Nat) (m : List (Entry V)) (ids : List Int) (ph : Int → Nat) (g : RGrid α V) : Prop :=
  ∃ c, g.mats[k]? = some c ∧ ∀ id ∈ ids, ∃ l, getRow C c (ph id) = some l ∧ (Complete g.nodeSet m id → l.Perm ((rowOf m id).map fun e => ((ph e.1.2 : Int), e.2))) ∧ (¬ Complete g.nodeSet m id → l = [])

/-- the neighbors of a node by logical IDs, with weights; none if one of the neighbors is missing -/
def Neighborhood (nodes : Idx) (m : List (Entry V)) (val : Int → α) (id : Int) (nb : List (α × V)) : Prop :=
  (Complete nodes m id → nb.Perm ((rowOf m id).map fun e => (val e.1.2, e.2))) ∧ (¬ Complete nodes m id → nb = [])

theorem updateRegion_ok {C : Nat} (hC : 0 < C) (f : α → α → List (α × V) → α) {N M : Nat} {ids : List Int} {ph : Int → Nat} {old new : RGrid α V} (ho : OK N M ids ph old) (hn : OK N M ids ph new)
    {k : Nat} {m : List (Entry V)} (hr : Rows C k m ids ph old) {val : Int → α} (hval : ∀ id ∈ ids, rGet old id = some (val id)) {phys : Idx} (hp : RegOK 0 phys) {region : Int → Prop}
    (hreg : ∀ id, region id → id ∈ ids) (hphys : ∀ p : Int, Node phys p ↔ ∃ id, region id ∧ p = ph id) :
    ∃ new', updateRegion C f k phys old new = some new' ∧ OK N M ids ph new' ∧ new'.nodeSet = new.nodeSet ∧ new'.mats = new.mats ∧ new'.cells.edge = new.cells.edge ∧
      (∀ id, region id → ∃ stale nb, Neighborhood old.nodeSet m val id nb ∧ rGet new' id = some (f stale (val id) nb)) ∧ ∀ id ∈ ids, ¬ region id → rGet new' id = rGet new id := by
  obtain ⟨c, c1, c2⟩ := hr
  have hsee : ∀ id, ∃ nb, id ∈ ids → Sees C c old.cells (ph id) nb ∧ Neighborhood old.nodeSet m val id nb := by
    intro id
    by_cases hid : id ∈ ids
    · obtain ⟨l, l1, l2, l3⟩ := c2 id hid
      by_cases hc : Complete old.nodeSet m id
      · have hmem : ∀ e ∈ rowOf m id, e.1.2 ∈ ids := by
          intro e he
          have := List.mem_filter.1 he
          exact (ho.mem _).2 (hc e this.1 (of_decide_eq_true this.2))
        obtain ⟨nb, n1, n2⟩ := neighbors_ok ho (rowOf m id) hmem
        obtain ⟨nb', p1, p2⟩ := neighbors_perm (l2 hc).symm n1
        refine ⟨nb', fun _ => ⟨⟨l, l1, p1⟩, fun _ => p2.trans (List.Perm.of_eq ?_), fun h => absurd hc h⟩⟩
        have h3 : nb.map (fun x => (some x.1, x.2)) = ((rowOf m id).map fun e => (val e.1.2, e.2)).map fun x => (some x.1, x.2) := by
          rw [n2, List.map_map]
          exact List.map_congr_left fun e he => by simp [hval _ (hmem e he)]
        exact (List.map_inj_right (fun a b h => by
          simp only [Prod.mk.injEq, Option.some.injEq] at h
          exact Prod.ext h.1 h.2)).1 h3
      · exact ⟨[], fun _ => ⟨⟨l, l1, by rw [l3 hc]; rfl⟩, fun h => absurd h hc, fun _ => rfl⟩⟩
    · exact ⟨[], fun h => absurd h hid⟩
  choose nbs hnbs using hsee
  -- positions
  have hinv : ∀ q : Nat, ∃ nb : List (α × V), ∀ id ∈ ids, q = ph id → nb = nbs id := by
    intro q
    by_cases h : ∃ id ∈ ids, q = ph id
    · obtain ⟨id, hid, rfl⟩ := h
      exact ⟨nbs id, fun j hj he => by rw [ho.inj id hid j hj he]⟩
    · exact ⟨[], fun id hid he => absurd ⟨id, hid, he⟩ h⟩
  choose nb hnb using hinv
  obtain ⟨ss, s1, s2, s3, s4⟩ := nodeStreaks hp
  have hq : ∀ s ∈ ss, ∀ x : Int, s.origin 0 ≤ x → x < s.endX → ∃ id ∈ ids, x = (ph id : Int) := by
    intro s hs x h1 h2
    obtain ⟨id, h3, h4⟩ := (hphys x).1 ((s4 x).2 ⟨s, hs, h1, h2⟩)
    exact ⟨id, hreg id h3, h4⟩
  obtain ⟨cells, u1, u2, u3, u4, u5, u6⟩ := updateAll_ok hC f c ho.dim ho.len nb ss new.cells hn.len (fun s hs => by
      have hpos := s2 s hs
      obtain ⟨i, hi, ei⟩ := hq s hs (s.origin 0) (Int.le_refl _) hpos
      obtain ⟨j, hj, ej⟩ := hq s hs (s.endX - 1) (by omega) (by omega)
      have := ho.lt j hj
      exact ⟨hpos, by omega, by omega⟩) s3 (fun s hs q h1 h2 => by
      obtain ⟨id, hid, e⟩ := hq s hs q h1 h2
      obtain rfl : q = ph id := by omega
      rw [hnb _ id hid rfl]
      exact (hnbs id hid).1)
  have ok : OK N M ids ph { new with cells := cells } := ⟨hn.reg, hn.nodes, hn.map, hn.inj, hn.lt, by rw [← hn.dim]; exact congrFun u2 0, u4, hn.mats⟩
  have hin : ∀ id ∈ ids, (∃ s ∈ ss, s.origin 0 ≤ ph id ∧ (ph id : Int) < s.endX) ↔ region id := by
    intro id hid
    rw [← s4, hphys]
    constructor
    · rintro ⟨j, hj, e⟩
      rwa [ho.inj id hid j (hreg j hj) (by omega)]
    · exact fun h => ⟨id, h, rfl⟩
  refine ⟨{ new with cells := cells }, ?_, ok, rfl, rfl, u3, fun id hid => ?_, fun id hid hno => ?_⟩
  · unfold updateRegion
    rw [c1, Option.bind_some, s1, Option.bind_some, u1]
    rfl
  · have hm := hreg id hid
    obtain ⟨stale, own, e1, e2⟩ := u5 (ph id) ((hin id hm).2 hid)
    refine ⟨stale, nbs id, (hnbs id hm).2, ?_⟩
    rw [← ho.get hm, hval id hm, Option.some.injEq] at e1
    rw [ok.get hm, e1, ← hnb _ id hm rfl]
    exact e2
  · rw [ok.get hid, hn.get hid]
    exact u6 _ fun h => hno ((hin id hid).1 h)

end LGD.Unstr
