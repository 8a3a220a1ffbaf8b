import Verif.Part.Subdiv
import Verif.Part.ZModel

/-!
# Traversals of subdivided boxes: coverage, translation, sequential iteration
-/

namespace LGD
open LGD.C12

variable {Q : Type} {G : Subdiv Q} {Inv : Q → Prop}

/-- geometric meaning of the squares -/
structure Subdiv.Geo (G : Subdiv Q) (Inv : Q → Prop) (n : Nat) (Mem : Q → Crd → Prop) : Prop where
  congr : ∀ q a b, CEq n a b → Mem q a → Mem q b
  empty : ∀ q c, Inv q → G.size q ≤ 0 → ¬ Mem q c
  dir_le : ∀ q, Inv q → G.triv q = true → G.dir q ≤ n
  triv : ∀ q c, Inv q → G.triv q = true → 0 < G.size q →
    (Mem q c ↔ ∃ i : Nat, (i : Int) < G.size q ∧ CEq n (upd (G.org q) (G.dir q) (G.org q (G.dir q) + (i : Int))) c)
  node : ∀ q c, Inv q → G.triv q = false → (Mem q c ↔ ∃ j, j < G.K ∧ Mem (G.kid q j) c)
  disj : ∀ q c i j, Inv q → G.triv q = false → i < j → j < G.K → Mem (G.kid q i) c → ¬ Mem (G.kid q j) c

theorem walk_mem (L : G.Laws Inv) {n : Nat} {Mem : Q → Crd → Prop} (H : G.Geo Inv n Mem) : ∀ (m : Nat) (q : Q), Inv q → (G.size q).toNat = m →
    (∀ c, (∃ c' ∈ walk G q, CEq n c' c) ↔ Mem q c) ∧ (walk G q).Pairwise (fun a b => ¬ CEq n a b) := by
  intro m
  induction m using Nat.strongRecOn with
  | _ m ih =>
    intro q hq hm
    by_cases h0 : G.size q ≤ 0
    · rw [walk_empty h0]
      refine ⟨fun c => ?_, List.Pairwise.nil⟩
      constructor
      · rintro ⟨_, h, _⟩; cases h
      · intro h; exact (H.empty q c hq h0 h).elim
    · cases ht : G.triv q with
      | true =>
        rw [walk_triv L hq ht (by omega)]
        refine ⟨fun c => ?_, ?_⟩
        · rw [H.triv q c hq ht (by omega)]
          constructor
          · rintro ⟨c', h1, h2⟩
            obtain ⟨i, hi, rfl⟩ := List.mem_map.1 h1
            have := List.mem_range.1 hi
            exact ⟨i, by omega, h2⟩
          · rintro ⟨i, hi, h2⟩
            exact ⟨_, List.mem_map.2 ⟨i, List.mem_range.2 (by omega), rfl⟩, h2⟩
        · rw [List.pairwise_map]
          refine List.Pairwise.imp ?_ List.pairwise_lt_range
          intro i j hij hc
          have := hc (G.dir q) (H.dir_le q hq ht)
          unfold upd at this
          simp only [if_true] at this
          omega
      | false =>
        have hk : ∀ j, j < G.K → (∀ c, (∃ c' ∈ walk G (G.kid q j), CEq n c' c) ↔ Mem (G.kid q j) c) ∧
            (walk G (G.kid q j)).Pairwise (fun a b => ¬ CEq n a b) := by
          intro j hj
          have hki := L.kid_inv q j hq ht hj
          have := L.kid_lt q j hq ht hj
          have := L.size_nonneg _ hki
          exact ih _ (by omega) _ hki rfl
        rw [walk_node L hq ht]
        refine ⟨fun c => ?_, ?_⟩
        · rw [H.node q c hq ht]
          constructor
          · rintro ⟨c', h1, h2⟩
            obtain ⟨j, hj, h3⟩ := List.mem_flatMap.1 h1
            have hj := List.mem_range.1 hj
            exact ⟨j, hj, ((hk j hj).1 c).1 ⟨c', h3, h2⟩⟩
          · rintro ⟨j, hj, h⟩
            obtain ⟨c', h3, h2⟩ := ((hk j hj).1 c).2 h
            exact ⟨c', List.mem_flatMap.2 ⟨j, List.mem_range.2 hj, h3⟩, h2⟩
        · rw [List.pairwise_flatMap]
          refine ⟨fun j hj => (hk j (List.mem_range.1 hj)).2, ?_⟩
          refine List.Pairwise.imp_of_mem ?_ List.pairwise_lt_range
          intro i j hi hj hij a ha b hb hab
          have hi := List.mem_range.1 hi
          have hj := List.mem_range.1 hj
          have m1 := ((hk i hi).1 a).1 ⟨a, ha, fun _ _ => rfl⟩
          have m2 := ((hk j hj).1 a).1 ⟨b, hb, fun k hk => (hab k hk).symm⟩
          exact H.disj q a i j hq ht hij hj m1 m2

/-! ## translation -/

/-- `q` is `q0` shifted by `o` -/
structure Shift (G : Subdiv Q) (Inv : Q → Prop) (R : Q → Q → Crd → Prop) : Prop where
  size : ∀ q q0 o, R q q0 o → G.size q = G.size q0
  triv : ∀ q q0 o, R q q0 o → G.triv q = G.triv q0
  dir : ∀ q q0 o, R q q0 o → G.dir q = G.dir q0
  org : ∀ q q0 o, R q q0 o → G.org q = fun k => o k + G.org q0 k
  kid : ∀ q q0 o j, R q q0 o → R (G.kid q j) (G.kid q0 j) o

theorem walk_shift (L : G.Laws Inv) {R : Q → Q → Crd → Prop} (S : Shift G Inv R) : ∀ (m : Nat) (q q0 : Q) (o : Crd), Inv q → Inv q0 → R q q0 o →
    (G.size q).toNat = m → walk G q = (walk G q0).map (fun c k => o k + c k) := by
  intro m
  induction m using Nat.strongRecOn with
  | _ m ih =>
    intro q q0 o hq hq0 hr hm
    have hs := S.size q q0 o hr
    by_cases h0 : G.size q ≤ 0
    · rw [walk_empty h0, walk_empty (by omega)]; rfl
    · have htt := S.triv q q0 o hr
      cases ht : G.triv q with
      | true =>
        rw [walk_triv L hq ht (by omega), walk_triv L hq0 (by rw [← htt, ht]) (by omega), hs, S.dir q q0 o hr, S.org q q0 o hr, List.map_map]
        apply List.map_congr_left
        intro i _
        funext k
        unfold upd
        simp only [Function.comp_apply]
        split
        · rename_i h; subst h; omega
        · rfl
      | false =>
        have ht0 : G.triv q0 = false := by rw [← htt, ht]
        rw [walk_node L hq ht, walk_node L hq0 ht0, List.map_flatMap]
        rw [List.flatMap_def, List.flatMap_def]
        congr 1
        apply List.map_congr_left
        intro j hj
        have hj := List.mem_range.1 hj
        have hki := L.kid_inv q j hq ht hj
        have := L.kid_lt q j hq ht hj
        have := L.size_nonneg _ hki
        exact ih _ (by omega) _ _ o hki (L.kid_inv q0 j hq0 ht0 hj) (S.kid q q0 o j hr) rfl

/-! ## sequential iteration -/

theorem collect_spec (L : G.Laws Inv) (C : G.CacheOK Inv) {n : Nat} {q : Q} (hnd : (walk G q).Pairwise (fun a b => ¬ CEq n a b)) (r : Nat) :
    ∀ (p : Nat) (it : SqIter Q) (fuel : Nat), SqAt G Inv q p it → p + r = (walk G q).length → r < fuel →
      sqCollect n G (sqEnd (G.org q)) fuel it = some ((walk G q).drop p) := by
  have hcv := sq_curve L C n q hnd
  have hend : SqAt G Inv q (walk G q).length (sqEnd (G.org q)) := ⟨rfl, Or.inr ⟨Nat.le_refl _, rfl, rfl⟩⟩
  induction r with
  | zero =>
    intro p it fuel h hp hf
    obtain ⟨f, rfl⟩ : ∃ f, fuel = f + 1 := ⟨fuel - 1, by omega⟩
    have he : sqEq n it (sqEnd (G.org q)) = true := (hcv.eq p _ it _ h hend (by omega) (Nat.le_refl _)).2 (by omega)
    rw [sqCollect, if_pos he, List.drop_eq_nil_of_le (by omega)]
  | succ r ih =>
    intro p it fuel h hp hf
    obtain ⟨f, rfl⟩ : ∃ f, fuel = f + 1 := ⟨fuel - 1, by omega⟩
    have hne : ¬ sqEq n it (sqEnd (G.org q)) = true := by
      intro he
      have := (hcv.eq p _ it _ h hend (by omega) (Nat.le_refl _)).1 he
      omega
    rw [sqCollect, if_neg hne]
    obtain ⟨it', h1, h2⟩ := hcv.next p it h (by omega)
    rw [show sqNext G it = some it' from h1, Option.bind_some, ih (p + 1) it' f h2 (by omega) (by omega), Option.map_some]
    have hpl : p < (walk G q).length := by omega
    rw [List.drop_eq_getElem_cons hpl]
    congr 2
    rcases h.2 with ⟨_, h3⟩ | ⟨h3, _⟩
    · have := rem_cursor L C h3
      rw [List.head?_drop, List.getElem?_eq_getElem hpl] at this
      exact (Option.some.inj this).symm
    · omega

theorem sqAll_spec (L : G.Laws Inv) (C : G.CacheOK Inv) {n : Nat} {q : Q} (hq : Inv q) (hnd : (walk G q).Pairwise (fun a b => ¬ CEq n a b))
    (fuel : Nat) (hf : G.size q < fuel) : sqAll n G q fuel = some (walk G q) := by
  unfold sqAll
  obtain ⟨it, h1, h2⟩ := sqStart_spec L C q hq 0
  rw [Nat.zero_min] at h2
  have hl := walk_length L hq
  rw [show sqStart G q 0 = some it from h1, Option.bind_some, collect_spec L C hnd (walk G q).length 0 it fuel h2 (by omega) (by omega), List.drop_zero]

/-- the spec traversal does not look at the cache -/
theorem walk_cache (G : Subdiv Q) (c : Q → Option (List Crd)) (q : Q) : walk { G with cached := c } q = walk G q := by
  unfold walk
  have : ∀ f q, walkF { G with cached := c } f q = walkF G f q := by
    intro f
    induction f with
    | zero => intro q; rfl
    | succ f ih =>
      intro q
      rw [walkF, walkF]
      simp only [ih]
  rw [this]

theorem laws_cache (L : G.Laws Inv) (c : Q → Option (List Crd)) : Subdiv.Laws { G with cached := c } Inv :=
  ⟨L.kpos, L.size_nonneg, L.pos, L.kid_inv, L.kid_lt, L.len_eq, L.accu_zero, L.accu_succ, L.accu_last, L.last_pos, L.select_ok, L.up_nil, L.up_cons⟩

/-- random access: `curve[p]` is the `p`-th coordinate of the traversal; positions from the volume on deliver `end()` -/
theorem sqStart_get (L : G.Laws Inv) (C : G.CacheOK Inv) {q : Q} (hq : Inv q) (p : Nat) :
    ∃ it, sqStart G q p = some it ∧
      (∀ x, (walk G q)[p]? = some x → it.endReached = false ∧ it.cursor = x) ∧
      ((walk G q).length ≤ p → it.endReached = true ∧ it.cursor = G.org q) := by
  obtain ⟨it, h1, h2⟩ := sqStart_spec L C q hq p
  refine ⟨it, h1, fun x hx => ?_, fun hp => ?_⟩
  · obtain ⟨hp, rfl⟩ := List.getElem?_eq_some_iff.1 hx
    rw [Nat.min_eq_left (by omega)] at h2
    rcases h2.2 with ⟨_, h3⟩ | ⟨h3, _⟩
    · have := rem_cursor L C h3
      rw [List.head?_drop, List.getElem?_eq_getElem hp] at this
      exact ⟨h3.run, (Option.some.inj this).symm⟩
    · omega
  · rw [Nat.min_eq_right hp] at h2
    rcases h2.2 with ⟨h3, _⟩ | ⟨_, h3⟩
    · omega
    · exact h3

end LGD
