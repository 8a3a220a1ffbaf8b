import Verif.Comm.LinkRounds
import Verif.Props.C43

/-!
# Synchronisations of `VanillaStepper`s
-/

namespace LGD.LinkProg
open LGD.Mpi LGD.Step LGD.Patch LGD.C26 LGD.C43

variable {κ α β : Type} [DecidableEq κ] {C : Cluster κ α} {W : Nat} {S : Sim κ α} {own outer : Nat → κ → Prop} {nb : κ → κ → Prop}
variable {cd : Codec α β} {b1 b2 : Nat → Nat → List α} {fixed repaired : Bool} {total : Nat}

theorem mem_src {i j : Nat} : j ∈ (simNet C cd b1 b2 fixed repaired total).src i ↔ j < C.N ∧ i < C.N ∧ C.recvRegion i j ≠ [] := by
  simp [simNet]

theorem mem_dst {i j : Nat} : i ∈ (simNet C cd b1 b2 fixed repaired total).dst j ↔ i < C.N ∧ j < C.N ∧ C.sendRegion j i ≠ [] := by
  simp [simNet]

omit [DecidableEq κ] in
/-- nobody sends patches to themselves -/
theorem no_self (h : ClusterOK C W S own outer nb) (i : Nat) (hi : i < C.N) : C.recvRegion i i = [] := by
  rw [List.eq_nil_iff_forall_not_mem]
  intro c hc
  refine (h.fit i hi).outer_own c (h.only i i hi hi c hc) (((h.fit i hi).own_iff c).2 (Or.inl ?_))
  rw [h.width i hi]
  exact h.inRim i i hi hi c hc

theorem simNet_ok (h : ClusterOK C W S own outer nb) : NetOK (simNet C cd b1 b2 fixed repaired total) where
  sym a b := by
    rw [mem_src, mem_dst]
    constructor
    · rintro ⟨h1, h2, h3⟩; exact ⟨h2, h1, by rw [h.agree b a h2 h1]; exact h3⟩
    · rintro ⟨h1, h2, h3⟩; exact ⟨h2, h1, by rw [← h.agree b a h1 h2]; exact h3⟩
  ne a b hab := by
    rw [mem_dst] at hab
    rintro rfl
    apply hab.2.2
    rw [h.agree a a hab.1 hab.1]
    exact no_self h a hab.1
  lt a b hab := by
    rw [mem_dst] at hab
    exact ⟨hab.2.1, hab.1⟩
  src a := List.nodup_range.filter _
  dst a := List.nodup_range.filter _

/-- the patch number `l` from `j` to `i` -/
def patch (C : Cluster κ α) (W : Nat) (S : Sim κ α) (i j l : Nat) : List α := saveRegion (C.recvRegion i j) (absU S (S.first + (l + 1) * W))

/-- All ranks have sent `m + 1` patches on each of their links and received `m`. -/
structure RInv (C : Cluster κ α) (W : Nat) (S : Sim κ α) (own : Nat → κ → Prop) (m : Nat) (x : Nat → Option (Node κ α)) (st : Nat → St κ α)
    (got : Nat → Nat → List (List α)) : Prop where
  x : ∀ i, i < C.N → x i = some ⟨st i, got i⟩
  inv : CInv C W own (absU S) (absV S) (fun _ => m * W) st
  got : ∀ i, i < C.N → ∀ j, j < C.N → C.recvRegion i j ≠ [] → got i j = (List.range m).map (patch C W S i j)

omit [DecidableEq κ] in
theorem sent_eq (h : ClusterOK C W S own outer nb) (hW : 0 < W) {m : Nat} {x : Nat → Option (Node κ α)} {st : Nat → St κ α} {got : Nat → Nat → List (List α)}
    (hR : RInv C W S own m x st got) {i j : Nat} (hi : i < C.N) (hj : j < C.N) : sentTo C i j (st j) = (List.range (m + 1)).map (patch C W S i j) := by
  rw [sent_len h hR.inv i j hi hj, Nat.mul_div_cancel _ hW]
  rfl

/-- providers in terms of patches received -/
theorem gotProv_ok (h : ClusterOK C W S own outer nb) {m : Nat} {x : Nat → Option (Node κ α)} {st : Nat → St κ α} {got : Nat → Nat → List (List α)}
    (hR : RInv C W S own m x st got) {i : Nat} (hi : i < C.N) {g' : Nat → List (List α)} {n M : Nat} (hM : M ≤ n) (hn : n ≤ m + 1)
    (hg : ∀ j, j < C.N → C.recvRegion i j ≠ [] → g' j = (List.range n).map (patch C W S i j)) :
    ProvOK { C.env i with prov := gotProv C g' i } (outer i) (absU S) (S.first + (M + 1) * W) := by
  have hW := (h.fit i hi).width
  rw [h.width i hi] at hW
  have hp := link_provOK h hR.inv i hi M (fun j _ _ => by rw [Nat.mul_div_cancel _ hW]; omega)
  have e1 : t0 (C.env i) = S.first := (h.fits i hi).t0
  have key : ∀ s, s < S.first + (M + 1) * W → ∀ g, gotProv C g' i s g = linkProv C st i s g := by
    intro s hs g
    unfold gotProv linkProv
    by_cases hd : due (C.env i) s = true
    · rw [if_pos hd, if_pos hd]
      unfold due at hd
      change (decide (t0 (C.env i) < s) && (s - t0 (C.env i)) % (C.env i).W == 0) = true at hd
      rw [e1, h.width i hi, Bool.and_eq_true, decide_eq_true_eq, beq_iff_eq] at hd
      obtain ⟨q, hq⟩ : ∃ q, s - S.first = W * q := Nat.dvd_of_mod_eq_zero hd.2
      have hq0 : 0 < q := by
        rcases Nat.eq_zero_or_pos q with rfl | h0
        · simp at hq; omega
        · exact h0
      have hno : patchNo (C.env i) s = q - 1 := by
        unfold patchNo
        change (s - t0 (C.env i)) / (C.env i).W - 1 = _
        rw [h.width i hi, e1, hq, Nat.mul_div_cancel_left _ hW]
      have hqM : q ≤ M := by
        have : W * q < (M + 1) * W := by omega
        rw [Nat.mul_comm (M + 1)] at this
        have := Nat.lt_of_mul_lt_mul_left this
        omega
      rw [hno]
      have : ∀ (l : List Nat) (g : κ → α), (∀ j ∈ l, j < C.N) →
          l.foldl (fun g j => if C.recvRegion i j = [] then g else loadRegion (C.recvRegion i j) ((g' j).getD (q - 1) []) g) g =
          l.foldl (fun g j => if C.recvRegion i j = [] then g else loadRegion (C.recvRegion i j) ((sentTo C i j (st j)).getD (q - 1) []) g) g := by
        intro l
        induction l with
        | nil => intro g _; rfl
        | cons j l ih =>
          intro g hl
          rw [List.foldl_cons, List.foldl_cons, ih _ (fun y hy => hl y (List.mem_cons_of_mem _ hy))]
          congr 1
          by_cases hne : C.recvRegion i j = []
          · rw [if_pos hne, if_pos hne]
          · have hj := hl j (List.mem_cons_self ..)
            rw [if_neg hne, if_neg hne, hg j hj hne, sent_eq h hW hR hi hj]
            congr 1
            rw [List.getD_eq_getElem?_getD, List.getD_eq_getElem?_getD, List.getElem?_map, List.getElem?_map, List.getElem?_range (by omega), List.getElem?_range (by omega)]
      exact this _ _ fun j hj => List.mem_range.1 hj
    · rw [if_neg hd, if_neg hd]
  have e2 : t0 (envAt C st i) = t0 (C.env i) := rfl
  have e3 : t0 { C.env i with prov := gotProv C g' i } = t0 (C.env i) := rfl
  have e4 : (envAt C st i).W = (C.env i).W := rfl
  obtain ⟨p1, p2, p3, p4⟩ := hp
  rw [e2] at p2 p3 p4
  rw [e4] at p4
  refine ⟨fun s hs g c hc => ?_, fun g c hc => ?_, fun s hs hs' g c hc => ?_, fun l hl hl' g c hc => ?_⟩
  · change gotProv C g' i s g c = g c
    rw [key s hs]; exact p1 s hs g c hc
  · rw [e3]
    change gotProv C g' i (t0 (C.env i)) g c = g c
    have : 0 < (M + 1) * W := Nat.mul_pos (by omega) hW
    rw [key _ (by rw [e1]; omega)]; exact p2 g c hc
  · rw [e3] at hs
    change gotProv C g' i s g c = g c ∨ gotProv C g' i s g c = _
    rw [key s hs']; exact p3 s hs hs' g c hc
  · rw [e3] at hl' ⊢
    change gotProv C g' i _ g c = _
    rw [key _ hl']; exact p4 l hl hl' g c hc

/-- several nano steps up to the next synchronisation point -/
theorem updateN_ok (h : ClusterOK C W S own outer nb) (hl : ∀ n (g h : κ → α) c, (∀ d, nb c d → g d = h d) → S.upd n g c = S.upd n h c)
    {i : Nat} (hi : i < C.N) {p : Nat → (κ → α) → κ → α} {M : Nat} (hp : ∀ M', M' ≤ M → ProvOK { C.env i with prov := p } (outer i) (absU S) (S.first + (M' + 1) * W)) :
    ∀ (n k : Nat) (st : St κ α), (k + n) / W ≤ M → SInv (C.env i) (own i) (absU S) (absV S) k st →
    ∃ st', updateN { C.env i with prov := p } n st = some st' ∧ SInv (C.env i) (own i) (absU S) (absV S) (k + n) st' := by
  intro n
  induction n with
  | zero => intro k st _ hs; exact ⟨st, rfl, hs⟩
  | succ n ih =>
    intro k st hk hs
    have hle : (k + 1) / W ≤ M := Nat.le_trans (Nat.div_le_div_right (by omega)) hk
    have e1 : t0 { C.env i with prov := p } = S.first := ((h.fits i hi).prov _).t0
    have e2 : ({ C.env i with prov := p } : Env κ α).W = W := h.width i hi
    obtain ⟨st1, s1, s2⟩ := update1_ok (E := { C.env i with prov := p }) (fit_prov (h.fit i hi) _) (h.steerOK ((h.fits i hi).prov _))
      (by intro n g h' c hc; change (C.env i).upd n g c = (C.env i).upd n h' c; rw [h.sameUpd i hi]; exact hl n g h' c hc)
      (serial_ok h i hi _ ((h.fits i hi).prov _) rfl) k (by rw [e1, e2]; exact hp _ hle) st ((sinv_prov _).mpr hs)
    obtain ⟨st2, s3, s4⟩ := ih (k + 1) st1 (by rw [show k + 1 + n = k + (n + 1) by omega]; exact hk) ((sinv_prov _).mp s2)
    refine ⟨st2, ?_, by rw [show k + (n + 1) = k + 1 + n by omega]; exact s4⟩
    rw [updateN, s1, Option.bind_some, s3]

/-- what is loaded -/
theorem foldl_load (i : Nat) (msg : Nat → List β) : ∀ (l : List Nat) (nd : Node κ α), l.Nodup →
    l.foldl (fun x q => (simNet C cd b1 b2 fixed repaired total).load i q (msg q) x) (some nd) =
      some { nd with got := fun j => if j ∈ l then nd.got j ++ [cd.dec (msg j)] else nd.got j } := by
  intro l
  induction l with
  | nil => intro nd _; simp
  | cons q l ih =>
    intro nd hn
    rw [List.nodup_cons] at hn
    have : (simNet C cd b1 b2 fixed repaired total).load i q (msg q) (some nd) =
        some { nd with got := Function.update nd.got q (nd.got q ++ [cd.dec (msg q)]) } := rfl
    rw [List.foldl_cons, this, ih _ hn.2]
    congr 2
    funext j
    by_cases hj : j = q
    · subst hj
      simp [hn.1]
    · by_cases hjl : j ∈ l
      · simp [hjl, hj]
      · simp [hjl, hj]

/-- the states of the ranks after each synchronisation -/
noncomputable def syncX (T : Net (Option (Node κ α)) β) : Nat → Nat → Option (Node κ α)
  | 0, i => (T.comp i 0 none).getD none
  | m + 1, i => (T.comp i (m + 1) (loaded T (mix T.N (syncX T m) fun _ => none) i)).getD none

section
variable (h : ClusterOK C W S own outer nb) (hl : ∀ n (g h : κ → α) c, (∀ d, nb c d → g d = h d) → S.upd n g c = S.upd n h c)
include h hl

theorem sync_init (b1 b2) : ∃ st got, RInv C W S own 0 (syncX (simNet C cd b1 b2 fixed repaired total) 0) st got ∧
    ∀ i, i < C.N → (simNet C cd b1 b2 fixed repaired total).comp i 0 none = some (syncX (simNet C cd b1 b2 fixed repaired total) 0 i) := by
  have key : ∀ i, i < C.N → ∃ st, initGrids { C.env i with prov := fun _ g => g } (b1 i) (b2 i) = some st ∧
      SInv (C.env i) (own i) (absU S) (absV S) 0 st := by
    intro i hi
    obtain ⟨st, s1, s2⟩ := initGrids_ok (E := { C.env i with prov := fun _ g => g }) (fit_prov (h.fit i hi) _) (h.steerOK ((h.fits i hi).prov _))
      (by intro n g h' c hc; change (C.env i).upd n g c = (C.env i).upd n h' c; rw [h.sameUpd i hi]; exact hl n g h' c hc)
      (serial_ok h i hi _ ((h.fits i hi).prov _) rfl)
      (by
        refine ⟨fun _ _ _ _ _ => rfl, fun _ _ _ => rfl, fun _ _ _ _ _ _ => Or.inl rfl, ?_⟩
        intro m hm hlt
        exfalso
        have hlt' : m * (C.env i).W < (C.env i).W := Nat.lt_of_add_lt_add_left hlt
        have := Nat.mul_le_mul_right (C.env i).W hm
        have hW := (h.fit i hi).width
        simp at this
        omega) (b1 i) (b2 i)
    exact ⟨st, s1, (sinv_prov _).mp s2⟩
  by_cases hN : C.N = 0
  · refine ⟨fun i => ⟨S.initial, S.initial, 0, 0, 0, { buffer := fun _ => [] }, { buffer := fun _ => [] }, [], [], []⟩, fun _ _ => [], ⟨?_, ⟨?_, ?_⟩, ?_⟩, ?_⟩
    all_goals intro i hi; omega
  · obtain ⟨st0, -⟩ := key 0 (by omega)
    have : ∀ i, ∃ st, i < C.N → initGrids { C.env i with prov := fun _ g => g } (b1 i) (b2 i) = some st ∧
        SInv (C.env i) (own i) (absU S) (absV S) 0 st := fun i => by
      by_cases hi : i < C.N
      · obtain ⟨st, h1⟩ := key i hi
        exact ⟨st, fun _ => h1⟩
      · exact ⟨st0, fun h' => absurd h' hi⟩
    choose st hst using this
    have hc : ∀ i, i < C.N → (simNet C cd b1 b2 fixed repaired total).comp i 0 none = some (some ⟨st i, fun _ => []⟩) := by
      intro i hi
      show simComp C b1 b2 total i 0 none = _
      unfold simComp
      simp only [(hst i hi).1, Option.map_some]
    have hx : ∀ i, i < C.N → syncX (simNet C cd b1 b2 fixed repaired total) 0 i = some ⟨st i, fun _ => []⟩ := by
      intro i hi
      rw [syncX, hc i hi]; rfl
    refine ⟨st, fun _ _ => [], ⟨hx, ⟨fun i hi => ?_, fun _ _ _ _ _ => by omega⟩, fun i hi j hj _ => rfl⟩, fun i hi => by rw [hc i hi, hx i hi]⟩
    rw [Nat.zero_mul]
    exact (hst i hi).2

omit hl in
/-- patches have the right size -/
theorem sized (hW : 0 < W) (hcd : fixed = true → ∀ l, (cd.enc l).length = cd.width * l.length) {m : Nat} {x : Nat → Option (Node κ α)} {st : Nat → St κ α} {got : Nat → Nat → List (List α)}
    (hR : RInv C W S own m x st got) : Sized (simNet C cd b1 b2 fixed repaired total) (mix C.N x fun _ => none) := by
  intro a b hab hfix
  rw [mem_dst] at hab
  show List.length (match mix C.N x (fun _ => none) a with | some nd => cd.enc (((sentTo C b a nd.st).getLast?).getD []) | none => []) = cd.width * (C.recvRegion b a).length
  rw [mix, if_pos hab.2.1, hR.x a hab.2.1]
  simp only
  rw [hcd hfix, sent_eq h hW hR hab.1 hab.2.1]
  simp [List.range_succ, patch, saveRegion]

/-- one synchronisation -/
theorem sync_step (hW : 0 < W) {m : Nat} (hm : (m + 1) * W ≤ total) {st : Nat → St κ α} {got : Nat → Nat → List (List α)}
    (hR : RInv C W S own m (syncX (simNet C cd b1 b2 fixed repaired total) m) st got) :
    ∃ st' got', RInv C W S own (m + 1) (syncX (simNet C cd b1 b2 fixed repaired total) (m + 1)) st' got' ∧
      ∀ i, i < C.N → (simNet C cd b1 b2 fixed repaired total).comp i (m + 1) (loaded (simNet C cd b1 b2 fixed repaired total)
        (mix C.N (syncX (simNet C cd b1 b2 fixed repaired total) m) fun _ => none) i) = some (syncX (simNet C cd b1 b2 fixed repaired total) (m + 1) i) := by
  set T := simNet C cd b1 b2 fixed repaired total with hT
  set y := mix C.N (syncX T m) fun _ => none with hy
  have hyi : ∀ i, i < C.N → y i = some ⟨st i, got i⟩ := by
    intro i hi
    rw [hy, mix, if_pos hi, hR.x i hi]
  have hmsg : ∀ i j, i < C.N → j < C.N → T.save j i (y j) = cd.enc (patch C W S i j m) := by
    intro i j hi hj
    show (match y j with | some nd => cd.enc (((sentTo C i j nd.st).getLast?).getD []) | none => []) = _
    rw [hyi j hj]
    simp only
    rw [sent_eq h hW hR hi hj]
    simp [List.range_succ]
  have hload : ∀ i, i < C.N → loaded T y i = some ⟨st i, fun j => if j ∈ T.src i then got i j ++ [patch C W S i j m] else got i j⟩ := by
    intro i hi
    unfold loaded
    rw [hyi i hi, foldl_load i (fun q => T.save q i (y q)) _ _ ((simNet_ok h).src i)]
    congr 2
    funext j
    by_cases hj : j ∈ T.src i
    · have hj' := (mem_src.1 hj).1
      simp only [if_pos hj]
      rw [hmsg i j hi hj', cd.dec_enc]
      exact if_pos hj
    · simp only [if_neg hj]
      exact if_neg hj
  set got' : Nat → Nat → List (List α) := fun i j => if j ∈ T.src i then got i j ++ [patch C W S i j m] else got i j with hgot'
  have hg : ∀ i, i < C.N → ∀ j, j < C.N → C.recvRegion i j ≠ [] → got' i j = (List.range (m + 1)).map (patch C W S i j) := by
    intro i hi j hj hne
    rw [hgot']
    simp only
    rw [if_pos (mem_src.2 ⟨hj, hi, hne⟩), hR.got i hi j hj hne, List.range_succ, List.map_append]
    rfl
  have key : ∀ i, i < C.N → ∃ st', updateN { C.env i with prov := gotProv C (got' i) i } (min (C.env i).W (total - m * (C.env i).W)) (st i) = some st' ∧
      SInv (C.env i) (own i) (absU S) (absV S) ((m + 1) * W) st' := by
    intro i hi
    have e : (m + 1) * W = m * W + W := Nat.succ_mul m W
    rw [h.width i hi, Nat.min_eq_left (by omega)]
    obtain ⟨st', s1, s2⟩ := updateN_ok h hl hi (p := gotProv C (got' i) i) (M := m + 1) (fun M' hM' => gotProv_ok h hR hi hM' (Nat.le_refl _) (hg i hi)) W (m * W) (st i)
      (by rw [← e, Nat.mul_div_cancel _ hW]) (hR.inv.node i hi)
    exact ⟨st', s1, by rw [e]; exact s2⟩
  have : ∀ i, ∃ st', i < C.N → updateN { C.env i with prov := gotProv C (got' i) i } (min (C.env i).W (total - m * (C.env i).W)) (st i) = some st' ∧
      SInv (C.env i) (own i) (absU S) (absV S) ((m + 1) * W) st' := fun i => by
    by_cases hi : i < C.N
    · obtain ⟨st', h1⟩ := key i hi
      exact ⟨st', fun _ => h1⟩
    · exact ⟨st i, fun h' => absurd h' hi⟩
  choose st' hst using this
  have hc : ∀ i, i < C.N → T.comp i (m + 1) (loaded T y i) = some (some ⟨st' i, got' i⟩) := by
    intro i hi
    show simComp C b1 b2 total i (m + 1) _ = _
    rw [hload i hi]
    show Option.map (fun st => some (⟨st, got' i⟩ : Node κ α)) (updateN { C.env i with prov := gotProv C (got' i) i }
      (min (C.env i).W (total - m * (C.env i).W)) (st i)) = _
    rw [(hst i hi).1]
    rfl
  have hx : ∀ i, i < C.N → syncX T (m + 1) i = some ⟨st' i, got' i⟩ := by
    intro i hi
    rw [syncX]
    change (T.comp i (m + 1) (loaded T y i)).getD none = _
    rw [hc i hi]; rfl
  exact ⟨st', got', ⟨hx, ⟨fun i hi => (hst i hi).2, fun _ _ _ _ _ => by omega⟩, hg⟩, fun i hi => by rw [hc i hi, hx i hi]⟩

/-- the nano steps after the last synchronisation -/
theorem sync_last (hW : 0 < W) {st : Nat → St κ α} {got : Nat → Nat → List (List α)}
    (hR : RInv C W S own (total / W) (syncX (simNet C cd b1 b2 fixed repaired total) (total / W)) st got) :
    ∃ st', CInv C W own (absU S) (absV S) (fun _ => total) st' ∧
      ∀ i, i < C.N → (simNet C cd b1 b2 fixed repaired total).comp i (total / W + 1) (syncX (simNet C cd b1 b2 fixed repaired total) (total / W) i) =
        some (some ⟨st' i, got i⟩) := by
  set m := total / W with hm
  have e : total = m * W + total % W := by rw [hm, Nat.mul_comm]; exact (Nat.div_add_mod total W).symm
  have hlt := Nat.mod_lt total hW
  have key : ∀ i, i < C.N → ∃ st', updateN { C.env i with prov := gotProv C (got i) i } (min (C.env i).W (total - m * (C.env i).W)) (st i) = some st' ∧
      SInv (C.env i) (own i) (absU S) (absV S) total st' := by
    intro i hi
    rw [h.width i hi, Nat.min_eq_right (by omega), show total - m * W = total % W by omega]
    obtain ⟨st', s1, s2⟩ := updateN_ok h hl hi (p := gotProv C (got i) i) (M := m) (fun M' hM' => gotProv_ok h hR hi hM' (by omega) (hR.got i hi)) (total % W) (m * W) (st i)
      (by rw [← e]) (hR.inv.node i hi)
    exact ⟨st', s1, by rw [← e] at s2; exact s2⟩
  have : ∀ i, ∃ st', i < C.N → updateN { C.env i with prov := gotProv C (got i) i } (min (C.env i).W (total - m * (C.env i).W)) (st i) = some st' ∧
      SInv (C.env i) (own i) (absU S) (absV S) total st' := fun i => by
    by_cases hi : i < C.N
    · obtain ⟨st', h1⟩ := key i hi
      exact ⟨st', fun _ => h1⟩
    · exact ⟨st i, fun h' => absurd h' hi⟩
  choose st' hst using this
  refine ⟨st', ⟨fun i hi => (hst i hi).2, fun _ _ _ _ _ => by omega⟩, fun i hi => ?_⟩
  show simComp C b1 b2 total i (m + 1) _ = _
  rw [hR.x i hi]
  unfold simComp
  simp only [(hst i hi).1, Option.map_some]

end

end LGD.LinkProg
