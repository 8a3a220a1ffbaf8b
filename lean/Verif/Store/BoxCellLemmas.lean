import Verif.Store.BoxCellModel
import Verif.Props.C35
import Verif.Props.C36

/-!
# `NeighborhoodIterator`: the particles visited
-/

namespace LGD.BoxC
open LGD.Store LGD.FixedA LGD.C35

variable {R P : Type} {n : Nat} {wraps : Nat → Bool}

/-- iteration from `c` to the end of the box of neighbors -/
inductive Walk (n : Nat) : Crd → List Crd → Prop where
  | nil {c} : crdEq n c (hoodLast n) = true → Walk n c []
  | cons {c l} : crdEq n c (hoodLast n) = false → Walk n (boxIncr (fun _ => -1) (fun _ => 2) n 0 c) l → Walk n c (c :: l)

theorem walk_of_loop (fuel : Nat) : ∀ (c : Crd) (l : List Crd), boxLoop n (fun _ => -1) (fun _ => 2) (hoodLast n) fuel c = some l → Walk n c l := by
  induction fuel with
  | zero => intro c l h; cases h
  | succ fuel ih =>
    intro c l h
    rw [boxLoop] at h
    by_cases e : crdEq n c (hoodLast n) = true
    · rw [if_pos e] at h
      cases h
      exact .nil e
    · rw [if_neg e] at h
      cases h2 : boxLoop n (fun _ => -1) (fun _ => 2) (hoodLast n) fuel (boxIncr (fun _ => -1) (fun _ => 2) n 0 c) with
      | none => rw [h2] at h; cases h
      | some l' =>
        rw [h2] at h
        cases h
        exact .cons (by simpa using e) (ih _ _ h2)

/-- the coordinates of the Moore neighborhood, in the order of iteration -/
theorem hood_walk (n : Nat) : ∃ l z, boxCoords n hoodBox (3 ^ (n + 1) + 1) = some (l ++ [z]) ∧ Walk n (fun _ => -1) (l ++ [z]) ∧ (∀ j, j ≤ n → z j = 1) ∧
    (∀ c, (∃ c' ∈ l ++ [z], ∀ k, k ≤ n → c' k = c k) ↔ C36.Near n c) ∧ (l ++ [z]).Pairwise (fun a b => ∃ k, k ≤ n ∧ a k ≠ b k) ∧ (l ++ [z]).length = 3 ^ (n + 1) := by
  have hv : ∀ n, C12.Volume n (fun _ => 3) = 3 ^ (n + 1) := by
    intro n
    induction n with
    | zero => rfl
    | succ n ih => rw [C12.Volume, ih, pow_succ 3 (n + 1)]
  have hv' : C12.Volume n (fun _ => 3) = ((3 ^ (n + 1) : Nat) : Int) := by rw [hv]; push_cast; rfl
  obtain ⟨l, e, h, hp, hlen, _⟩ := C12.coords_partial n ⟨fun _ => -1, fun _ => 3⟩ (fun _ _ => by simp) (by simp) (3 ^ (n + 1) + 1)
    (by rw [hv', Int.toNat_natCast]; omega)
  have hnear : ∀ c, (∃ c' ∈ l, ∀ k, k ≤ n → c' k = c k) ↔ C36.Near n c := by
    intro c
    rw [h]
    exact ⟨fun hc j hj => by have := hc j hj; simp only at this; omega, fun hc j hj => by have := hc j hj; simp only; omega⟩
  have hlen' : l.length = 3 ^ (n + 1) := by
    simp only [hv'] at hlen
    omega
  rcases List.eq_nil_or_concat l with rfl | ⟨a, z, rfl⟩
  · have : 0 < 3 ^ (n + 1) := Nat.pos_of_ne_zero (by simp)
    simp only [List.length_nil] at hlen'
    omega
  · rw [List.concat_eq_append] at *
    refine ⟨a, z, e, walk_of_loop _ _ _ e, fun j hj => ?_, hnear, hp.imp fun ⟨k, h1, h2, _⟩ => ⟨k, h1, by omega⟩, hlen'⟩
    obtain ⟨e1, he1, he2⟩ := (hnear (fun _ => 1)).2 (fun j _ => by simp)
    have hz := (hnear z).1 ⟨z, by simp, fun _ _ => rfl⟩
    rw [List.mem_append, List.mem_singleton] at he1
    rcases he1 with he1 | rfl
    · rw [List.pairwise_append] at hp
      obtain ⟨k, h1, h2, _⟩ := hp.2.2 e1 he1 z (by simp)
      have := hz k h1
      rw [he2 k h1] at h2
      omega
    · exact he2 j hj

/-- all containers of the neighborhood exist and are within their capacity -/
structure Hood (n : Nat) (wraps : Nat → Bool) (g : Grid (BoxCell R P)) (c : Crd) (hood : Crd → BoxCell R P) : Prop where
  get : ∀ d, C36.Near n d → deref g (hoodAddr n wraps g c d) = some (hood d)
  le : ∀ d, C36.Near n d → (hood d).particles.elements ≤ (hood d).particles.store.length

/-- the iterator points to the first of the remaining particles, or is at the end -/
inductive Pos (n : Nat) (wraps : Nat → Bool) (g : Grid (BoxCell R P)) (c : Crd) (hood : Crd → BoxCell R P) (z : Crd) : It → List P → Prop where
  | mid {d rest k} : Walk n d (d :: rest) → (∀ x ∈ d :: rest, C36.Near n x) → (d :: rest).getLast (by simp) = z → rest.length ≤ 3 ^ (n + 1) → k < (hood d).particles.elements →
      Pos n wraps g c hood z ⟨d, hoodAddr n wraps g c d, k⟩ ((content (hood d).particles).drop k ++ rest.flatMap fun d => content (hood d).particles)
  | done {b} : Pos n wraps g c hood z ⟨b, hoodAddr n wraps g c z, (hood z).particles.elements⟩ []

theorem content_length' {a : FA P} (h : a.elements ≤ a.store.length) : (content a).length = a.elements := by
  unfold content
  rw [List.length_take]
  omega

theorem skip_ok {g : Grid (BoxCell R P)} {c : Crd} {hood : Crd → BoxCell R P} (hh : Hood n wraps g c hood) (rest : List Crd) : ∀ (d : Crd) (fuel : Nat) (z : Crd),
    Walk n d (d :: rest) → (∀ x ∈ d :: rest, C36.Near n x) → (d :: rest).getLast (by simp) = z → rest.length ≤ 3 ^ (n + 1) → rest.length < fuel →
    ∃ it', skipLoop n wraps g c fuel ⟨d, hoodAddr n wraps g c d, (hood d).particles.elements⟩ = some it' ∧
      Pos n wraps g c hood z it' (rest.flatMap fun d => content (hood d).particles) := by
  induction rest with
  | nil =>
    intro d fuel z hw hn hz hlen hf
    obtain ⟨fuel, rfl⟩ : ∃ f, fuel = f + 1 := ⟨fuel - 1, by omega⟩
    cases hw with
    | cons h1 h2 => cases h2 with
      | nil h3 =>
        simp only [List.getLast_singleton] at hz
        subst hz
        refine ⟨_, ?_, .done (b := boxIncr (fun _ => -1) (fun _ => 2) n 0 d)⟩
        simp only [skipLoop, sizeAt, hh.get d (hn d (by simp)), Option.map_some, Option.bind_some, if_true]
        rw [if_pos h3]
  | cons d' rest ih =>
    intro d fuel z hw hn hz hlen hf
    obtain ⟨fuel, rfl⟩ : ∃ f, fuel = f + 1 := ⟨fuel - 1, by omega⟩
    cases hw with
    | cons h1 h2 =>
      have hw' := h2
      cases h2 with
      | cons h3 h4 =>
        have hn' : ∀ x ∈ boxIncr (fun _ => -1) (fun _ => 2) n 0 d :: rest, C36.Near n x := fun x hx => hn x (List.mem_cons_of_mem _ hx)
        have hz' : (boxIncr (fun _ => -1) (fun _ => 2) n 0 d :: rest).getLast (by simp) = z := by rw [← hz]; rw [List.getLast_cons_cons]
        have hstep : skipLoop n wraps g c (fuel + 1) ⟨d, hoodAddr n wraps g c d, (hood d).particles.elements⟩ =
            skipLoop n wraps g c fuel ⟨boxIncr (fun _ => -1) (fun _ => 2) n 0 d, hoodAddr n wraps g c (boxIncr (fun _ => -1) (fun _ => 2) n 0 d), 0⟩ := by
          simp only [skipLoop, sizeAt, hh.get d (hn d (by simp)), Option.map_some, Option.bind_some, if_true]
          rw [if_neg (by rw [h3]; simp)]
        rw [hstep]
        by_cases he : (hood (boxIncr (fun _ => -1) (fun _ => 2) n 0 d)).particles.elements = 0
        · obtain ⟨it', e, hp⟩ := ih _ fuel z hw' hn' hz' (by simp only [List.length_cons] at hlen; omega) (by simp only [List.length_cons] at hf; omega)
          rw [he] at e
          refine ⟨it', e, ?_⟩
          rw [List.flatMap_cons]
          have : content (hood (boxIncr (fun _ => -1) (fun _ => 2) n 0 d)).particles = [] := by unfold content; rw [he]; rfl
          rw [this, List.nil_append]
          exact hp
        · obtain ⟨fuel, rfl⟩ : ∃ f, fuel = f + 1 := ⟨fuel - 1, by simp only [List.length_cons] at hf; omega⟩
          refine ⟨⟨boxIncr (fun _ => -1) (fun _ => 2) n 0 d, hoodAddr n wraps g c (boxIncr (fun _ => -1) (fun _ => 2) n 0 d), 0⟩, ?_, ?_⟩
          rotate_left
          · have := Pos.mid (wraps := wraps) (g := g) (c := c) (hood := hood) (k := 0) hw' hn' hz' (by simp only [List.length_cons] at hlen; omega) (by omega)
            rw [List.drop_zero] at this
            rw [List.flatMap_cons]
            exact this
          · simp only [skipLoop, sizeAt, hh.get _ (hn' _ (List.mem_cons_self ..)), Option.map_some, Option.bind_some]
            rw [if_neg (fun h => he h.symm)]

theorem next_ok {g : Grid (BoxCell R P)} {c : Crd} {hood : Crd → BoxCell R P} (hh : Hood n wraps g c hood) {z : Crd} {it : It} {p : P} {rem : List P}
    (hp : Pos n wraps g c hood z it (p :: rem)) :
    itDeref g it = some p ∧ ∃ it', itNext n wraps g c it = some it' ∧ Pos n wraps g c hood z it' rem := by
  generalize hr : p :: rem = r at hp
  cases hp with
  | done => cases hr
  | @mid d rest k hw hn hz hlen hk =>
    have hd := hn d (List.mem_cons_self ..)
    have hle := hh.le d hd
    have hcl := content_length' hle
    have hk' : k < (content (hood d).particles).length := by omega
    have hdrop := List.drop_eq_getElem_cons hk'
    rw [hdrop, List.cons_append] at hr
    injection hr with hp hrem
    have hget : (content (hood d).particles)[k] = (hood d).particles.store[k]'(by omega) := by
      simp only [content, List.getElem_take]
    refine ⟨?_, ?_⟩
    · simp only [itDeref, hh.get d hd, Option.bind_some, FixedA.get]
      rw [List.getElem?_eq_getElem (by omega), hp, hget]
    · unfold itNext
      by_cases he : k + 1 = (hood d).particles.elements
      · obtain ⟨it', e, h⟩ := skip_ok hh rest d (3 ^ (n + 1) + 1) z hw hn hz hlen (by omega)
        refine ⟨it', ?_, ?_⟩
        · simp only [he]
          exact e
        · rw [List.drop_of_length_le (by omega), List.nil_append] at hrem
          rw [hrem]; exact h
      · refine ⟨⟨d, hoodAddr n wraps g c d, k + 1⟩, ?_, ?_⟩
        · simp only [skipLoop, sizeAt, hh.get d hd, Option.map_some, Option.bind_some]
          rw [if_neg he]
        · rw [hrem]
          exact .mid hw hn hz hlen (by omega)

theorem loop_ok {g : Grid (BoxCell R P)} {c : Crd} {hood : Crd → BoxCell R P} (hh : Hood n wraps g c hood) {z : Crd} (hz : C36.Near n z) (last : It)
    (h1 : last.cell = hoodAddr n wraps g c z) (h2 : last.pos = (hood z).particles.elements) (rem : List P) : ∀ (it : It) (fuel : Nat), Pos n wraps g c hood z it rem → rem.length < fuel →
    itLoop n wraps g c last fuel it = some rem := by
  induction rem with
  | nil =>
    intro it fuel hp hf
    obtain ⟨fuel, rfl⟩ : ∃ f, fuel = f + 1 := ⟨fuel - 1, by omega⟩
    generalize hr : ([] : List P) = r at hp
    cases hp with
    | done =>
      rw [itLoop, if_pos]
      simp [itEq, h1, h2]
    | @mid d rest k hw hn hz' hlen hk =>
      have := hh.le d (hn d (List.mem_cons_self ..))
      have hcl := content_length' this
      have hlen := congrArg List.length hr
      rw [List.length_append, List.length_drop, List.length_nil] at hlen
      omega
  | cons p rem ih =>
    intro it fuel hp hf
    obtain ⟨fuel, rfl⟩ : ∃ f, fuel = f + 1 := ⟨fuel - 1, by omega⟩
    obtain ⟨e1, it', e2, hp'⟩ := next_ok hh hp
    have hne : itEq it last = false := by
      generalize hr : p :: rem = r at hp
      cases hp with
      | done => cases hr
      | @mid d rest k hw hn hz' hlen hk =>
        unfold itEq
        rw [Bool.and_eq_false_iff]
        by_cases ha : hoodAddr n wraps g c d = last.cell
        · right
          rw [h1] at ha
          have e3 := hh.get d (hn d (List.mem_cons_self ..))
          rw [ha, hh.get z hz, Option.some.injEq] at e3
          rw [h2, e3, decide_eq_false_iff_not]
          simp only
          omega
        · left
          simpa using ha
    rw [itLoop, hne, if_neg (by simp), e1, Option.bind_some, e2, Option.bind_some, ih it' fuel hp' (by simp only [List.length_cons] at hf; omega), Option.map_some]

theorem begin_ok {g : Grid (BoxCell R P)} {c : Crd} {hood : Crd → BoxCell R P} (hh : Hood n wraps g c hood) {z : Crd} (hz1 : hoodAddr n wraps g c (fun _ => 1) = hoodAddr n wraps g c z)
    (hz2 : hood (fun _ => 1) = hood z) (l : List Crd) : ∀ b, Walk n b l → (∀ x ∈ l, C36.Near n x) → (∀ h : l ≠ [], l.getLast h = z) → l.length ≤ 3 ^ (n + 1) →
    ∃ it, beginLoop n wraps g c l = some it ∧ Pos n wraps g c hood z it (l.flatMap fun d => content (hood d).particles) := by
  induction l with
  | nil =>
    intro b _ _ _ _
    refine ⟨⟨fun _ => 1, hoodAddr n wraps g c z, (hood z).particles.elements⟩, ?_, .done⟩
    have := hh.get (fun _ => 1) (fun j _ => by simp)
    rw [hz1, hz2] at this
    simp only [beginLoop, sizeAt, mkIt, hz1, this, Option.map_some]
  | cons d l ih =>
    intro b hw hn hz hlen
    rw [List.length_cons] at hlen
    have hw0 := hw
    cases hw with
    | cons h1 h2 =>
      by_cases he : (hood d).particles.elements = 0
      · obtain ⟨it, e, hp⟩ := ih _ h2 (fun x hx => hn x (List.mem_cons_of_mem _ hx)) (fun h => by rw [← hz (by simp), List.getLast_cons h]) (by omega)
        refine ⟨it, ?_, ?_⟩
        · simp only [beginLoop, sizeAt, hh.get d (hn d (List.mem_cons_self ..)), Option.map_some, Option.bind_some, he]
          rw [if_neg (by omega)]
          exact e
        · rw [List.flatMap_cons]
          have : content (hood d).particles = [] := by unfold content; rw [he]; rfl
          rw [this, List.nil_append]
          exact hp
      · refine ⟨⟨d, hoodAddr n wraps g c d, 0⟩, ?_, ?_⟩
        · simp only [beginLoop, sizeAt, hh.get d (hn d (List.mem_cons_self ..)), Option.map_some, Option.bind_some, mkIt]
          rw [if_pos (by omega)]
        · have := Pos.mid (wraps := wraps) (g := g) (c := c) (hood := hood) (k := 0) hw0 hn (hz (by simp)) (by omega) (by omega)
          rw [List.drop_zero] at this
          rw [List.flatMap_cons]
          exact this

/-- the adapter's range visits the particles of all containers of the neighborhood -/
theorem visible_ok {g : Grid (BoxCell R P)} {c : Crd} {hood : Crd → BoxCell R P} (hh : Hood n wraps g c hood)
    (hc : ∀ a b : Crd, (∀ j, j ≤ n → a j = b j) → hoodAddr n wraps g c a = hoodAddr n wraps g c b) :
    ∃ l : List Crd, (∀ x, (∃ x' ∈ l, ∀ k, k ≤ n → x' k = x k) ↔ C36.Near n x) ∧ l.Pairwise (fun a b => ∃ k, k ≤ n ∧ a k ≠ b k) ∧
      ∀ fuel, (l.flatMap fun d => content (hood d).particles).length < fuel → visible n wraps g c fuel = some (l.flatMap fun d => content (hood d).particles) := by
  obtain ⟨l, z, e, hw, hz, hn, hp, hlen⟩ := hood_walk n
  have hnear : ∀ x ∈ l ++ [z], C36.Near n x := fun x hx => (hn x).1 ⟨x, hx, fun _ _ => rfl⟩
  have hz1 : hoodAddr n wraps g c (fun _ => 1) = hoodAddr n wraps g c z := hc _ _ fun j hj => (hz j hj).symm
  have hzn := hnear z (by simp)
  have h1n : C36.Near n (fun _ => 1) := fun j _ => by simp
  have hz2 : hood (fun _ => 1) = hood z := by
    have h1 := hh.get _ h1n
    rw [hz1, hh.get z hzn, Option.some.injEq] at h1
    exact h1.symm
  obtain ⟨it, e1, hpos⟩ := begin_ok hh hz1 hz2 (l ++ [z]) _ hw hnear (fun _ => by simp) (by omega)
  refine ⟨l ++ [z], hn, hp, fun fuel hf => ?_⟩
  unfold visible itBegin itEnd sizeAt
  rw [e, Option.bind_some, e1, Option.bind_some, hh.get _ h1n, Option.map_some, Option.map_some, Option.bind_some]
  exact loop_ok hh hzn _ hz1 (by simp only [mkIt]; rw [hz2]) _ it fuel hpos hf

/-- insertion of a list of particles -/
theorem pushAll_ok {size : Nat} (l : List P) : ∀ (a : FA P), OK size a →
    (a.elements + l.length ≤ size → ∃ a', pushAll l a = some (false, a') ∧ OK size a' ∧ content a' = content a ++ l) ∧
    (size < a.elements + l.length → ∃ a', pushAll l a = some (true, a')) := by
  induction l with
  | nil =>
    intro a h
    have := h.le
    exact ⟨fun _ => ⟨a, rfl, h, by simp⟩, fun hs => by simp only [List.length_nil] at hs; omega⟩
  | cons p l ih =>
    intro a h
    simp only [List.length_cons]
    by_cases hl : a.elements < size
    · obtain ⟨a1, e1, h1, h2⟩ := push_ok h p hl
      have he : a1.elements = a.elements + 1 := by
        have := congrArg List.length h2
        rw [content_length h1, List.length_append, content_length h] at this
        simpa using this
      obtain ⟨i1, i2⟩ := ih a1 h1
      refine ⟨fun hs => ?_, fun hs => ?_⟩
      · obtain ⟨a2, e2, h3, h4⟩ := i1 (by omega)
        exact ⟨a2, by simp [pushAll, e1, e2], h3, by rw [h4, h2]; simp⟩
      · obtain ⟨a2, e2⟩ := i2 (by omega)
        exact ⟨a2, by simp [pushAll, e1, e2]⟩
    · refine ⟨fun hs => by omega, fun _ => ⟨a, ?_⟩⟩
      have e1 : push a p = some (true, a) := by unfold push; rw [if_pos (by rw [h.len]; omega)]
      simp [pushAll, e1]

end LGD.BoxC
