import Verif.Hpx.DataflowLemmas

/-! # Every step of the dataflow simulator preserves the invariant -/

namespace LGD.Dataflow.Sim

variable {C M : Type} {P : Sim C M}

theorem own_mem_cells {l : Nat} (hl : l < P.L) {i : Int} (h : i ∈ P.own l) : i ∈ P.cells :=
  mem_cells.2 ⟨l, hl, h⟩

/-- steps of the main loop which only move one program counter -/
theorem inv_main {s : St C M} {G : Gh} (hI : P.Inv s G) {l : Nat} {pc : MPc} (hl : l < P.L)
    (hpast : ∀ k i, (P.own l)[k]? = some i → ∀ q, Past (s.main l) q k ↔ Past pc q k)
    (hok : P.MainOK l pc) (hret : ∀ q, pc = .ret q → ∀ i ∈ P.own l, G.n i = P.T)
    (hatt : ∀ q, Att (s.main l) q ↔ Att pc q) :
    P.Inv { s with main := Function.update s.main l pc } G :=
  { hI with
    past := by
      intro l' hl' k i h q
      by_cases e : l' = l
      · subst e
        simp only [Function.update_self]
        rw [hI.past l' hl' k i h q]; exact hpast k i h q
      · simp only [Function.update_of_ne e]; exact hI.past l' hl' k i h q
    mainOK := by
      intro l' hl'
      by_cases e : l' = l
      · subst e; simpa only [Function.update_self] using hok
      · simpa only [Function.update_of_ne e] using hI.mainOK l' hl'
    retDone := by
      intro l' hl' q
      by_cases e : l' = l
      · subst e; simpa only [Function.update_self] using hret q
      · simpa only [Function.update_of_ne e] using hI.retDone l' hl' q
    att := by
      intro l' hl' q
      by_cases e : l' = l
      · subst e
        simp only [Function.update_self]
        rw [hI.att l' hl' q]; exact hatt q
      · simpa only [Function.update_of_ne e] using hI.att l' hl' q }

theorem inv_launch (hv : P.Valid) {s : St C M} {G : Gh} (hI : P.Inv s G) {l q k : Nat} {i : Int}
    (hl : l < P.L) (h : s.main l = .launch q k) (hk : (P.own l)[k]? = some i) :
    P.Inv { s with
        main := Function.update s.main l (.launch q (k + 1))
        setup := put2 s.setup i q .launched } G := by
  have hidle : s.setup i q = .idle := by
    by_contra hne
    have := (hI.past l hl k i hk q).1 hne
    rw [h] at this
    simp [Past] at this
  have hset : ∀ i' q', put2 s.setup i q .launched i' q' = s.setup i' q' ∨
      (i' = i ∧ q' = q ∧ put2 s.setup i q .launched i' q' = .launched ∧ s.setup i' q' = .idle) := by
    intro i' q'
    by_cases e : i' = i ∧ q' = q
    · obtain ⟨rfl, rfl⟩ := e
      exact Or.inr ⟨rfl, rfl, put2_self _ _ _ _, hidle⟩
    · exact Or.inl (put2_ne _ e)
  exact
  { hI with
    asked := by
      intro i' hi' k' j hj q' t h1 h2
      rw [hI.asked i' hi' k' j hj q' t h1 h2]
      rcases hset i' q' with e | ⟨_, _, e1, e2⟩
      · simp only [e]
      · simp only [e1, e2, Asked]
    armed := by
      intro i' hi' q' t h1 h2
      refine (hI.armed i' hi' q' t h1 h2).trans ?_
      rcases hset i' q' with e | ⟨_, _, e1, e2⟩
      · simp only [e]
      · simp only [e1, e2, Armed]
    setupOK := by
      intro i' hi' q'
      rcases hset i' q' with e | ⟨_, _, e1, e2⟩
      · simp only [e]; exact hI.setupOK i' hi' q'
      · simp only [e1]; trivial
    past := by
      intro l' hl' k' i' h' q'
      have hp := hI.past l' hl' k' i' h' q'
      by_cases e : i' = i ∧ q' = q
      · obtain ⟨rfl, rfl⟩ := e
        obtain ⟨rfl, rfl⟩ := own_unique hv hl hl' hk h'
        simp [put2_self, Past]
      · simp only [put2_ne _ e]
        rw [hp]
        by_cases el : l' = l
        · subst el
          simp only [Function.update_self, h, Past]
          by_cases ei : i' = i
          · subst ei
            have := own_unique hv hl hl' hk h'
            have hq : q' ≠ q := fun e' => e ⟨rfl, e'⟩
            omega
          · have : k' ≠ k := by
              rintro rfl
              rw [hk] at h'
              exact ei (Option.some.inj h').symm
            omega
        · simp only [Function.update_of_ne el]
    mainOK := by
      intro l' hl'
      by_cases e : l' = l
      · subst e
        have := hI.mainOK l' hl'
        simp only [Function.update_self]
        rw [h] at this
        refine ⟨this.1, ?_⟩
        have := (List.getElem?_eq_some_iff.1 hk).1
        omega
      · simpa only [Function.update_of_ne e] using hI.mainOK l' hl'
    retDone := by
      intro l' hl' q'
      by_cases e : l' = l
      · subst e; simp
      · simpa only [Function.update_of_ne e] using hI.retDone l' hl' q'
    att := by
      intro l' hl' q'
      rw [hI.att l' hl' q']
      by_cases e : l' = l
      · subst e
        simp only [Function.update_self, h, Att]
      · simp only [Function.update_of_ne e] }

theorem inv_attach {s : St C M} {G : Gh} (hI : P.Inv s G) {l q k : Nat}
    (hl : l < P.L) (h : s.main l = .launch q k) (hk : k = (P.own l).length) :
    P.Inv { s with
        main := Function.update s.main l (.sem q)
        att := put2 s.att l q true } G :=
  { hI with
    past := by
      intro l' hl' k' i' h' q'
      rw [hI.past l' hl' k' i' h' q']
      by_cases el : l' = l
      · subst el
        simp only [Function.update_self, h, Past]
        have := (List.getElem?_eq_some_iff.1 h').1
        omega
      · simp only [Function.update_of_ne el]
    mainOK := by
      intro l' hl'
      by_cases e : l' = l
      · subst e
        have := hI.mainOK l' hl'
        simp only [Function.update_self]
        rw [h] at this
        exact this.1
      · simpa only [Function.update_of_ne e] using hI.mainOK l' hl'
    retDone := by
      intro l' hl' q'
      by_cases e : l' = l
      · subst e; simp
      · simpa only [Function.update_of_ne e] using hI.retDone l' hl' q'
    att := by
      intro l' hl' q'
      have ha := hI.att l' hl' q'
      by_cases e : l' = l
      · subst e
        simp only [Function.update_self, Att]
        by_cases eq : q' = q
        · subst eq; simp [put2_self]
        · rw [put2_ne _ (by simp [eq]), ha, h]
          simp only [Att]; omega
      · have e2 : ¬ (l' = l ∧ q' = q) := by simp [e]
        simp only [put2_ne _ e2, Function.update_of_ne e]
        exact ha }

theorem inv_signal {s : St C M} {G : Gh} (hI : P.Inv s G) {l q : Nat} :
    P.Inv { s with
        sig := put2 s.sig l q true
        lower := Function.update s.lower l (max (s.lower l) (q * P.c)) } G :=
  { hI with
    sigLow := by
      intro l' hl' q' h'
      by_cases e : l' = l
      · subst e
        simp only [Function.update_self]
        by_cases eq : q' = q
        · subst eq; exact le_max_right _ _
        · have e2 : ¬ (l' = l' ∧ q' = q) := by simp [eq]
          simp only [put2_ne _ e2] at h'
          exact le_trans (hI.sigLow l' hl' q' h') (le_max_left _ _)
      · have e2 : ¬ (l' = l ∧ q' = q) := by simp [e]
        simp only [put2_ne _ e2] at h'
        simp only [Function.update_of_ne e]
        exact hI.sigLow l' hl' q' h' }

/-- steps which only move `setupDataflow` of one chunk, without asking or arming -/
theorem inv_setup {s : St C M} {G : Gh} (hI : P.Inv s G) {i : Int} {q : Nat} {pc : SPc}
    (hask : ∀ t k, P.startT q ≤ t → t < P.endT q → k < (P.nbr i).length →
      (Asked (s.setup i q) t k ↔ Asked pc t k))
    (harm : ∀ t, P.startT q ≤ t → t < P.endT q → (Armed (s.setup i q) t ↔ Armed pc t))
    (hok : P.SetupOK i q pc) (n1 : s.setup i q ≠ .idle) (n2 : pc ≠ .idle) :
    P.Inv { s with setup := put2 s.setup i q pc } G :=
  { hI with
    asked := by
      intro i' hi' k' j hj q' t h1 h2
      rw [hI.asked i' hi' k' j hj q' t h1 h2]
      by_cases e : i' = i ∧ q' = q
      · obtain ⟨rfl, rfl⟩ := e
        simp only [put2_self]
        exact hask t k' h1 h2 (List.getElem?_eq_some_iff.1 hj).1
      · simp only [put2_ne _ e]
    armed := by
      intro i' hi' q' t h1 h2
      refine (hI.armed i' hi' q' t h1 h2).trans ?_
      by_cases e : i' = i ∧ q' = q
      · obtain ⟨rfl, rfl⟩ := e
        simp only [put2_self]
        exact harm t h1 h2
      · simp only [put2_ne _ e]
    setupOK := by
      intro i' hi' q'
      by_cases e : i' = i ∧ q' = q
      · obtain ⟨rfl, rfl⟩ := e
        simp only [put2_self]
        exact hok
      · simp only [put2_ne _ e]; exact hI.setupOK i' hi' q'
    past := by
      intro l' hl' k' i' h' q'
      refine Iff.trans ?_ (hI.past l' hl' k' i' h' q')
      by_cases e : i' = i ∧ q' = q
      · obtain ⟨rfl, rfl⟩ := e
        simp only [put2_self]
        exact ⟨fun _ => n1, fun _ => n2⟩
      · simp only [put2_ne _ e] }

theorem inv_arm {s : St C M} {G : Gh} (hI : P.Inv s G) {i : Int} {q t k : Nat}
    (hi : i ∈ P.cells) (h : s.setup i q = .run t k) (ht : t < P.endT q)
    (hk : k = (P.nbr i).length) :
    P.Inv { s with
        setup := put2 s.setup i q (.run (t + 1) 0)
        armed := put2 s.armed i t true } G := by
  have hok := hI.setupOK i hi q
  rw [h] at hok
  obtain ⟨o1, o2, o3, o4⟩ := hok
  exact
  { hI with
    asked := by
      intro i' hi' k' j hj q' t' h1 h2
      rw [hI.asked i' hi' k' j hj q' t' h1 h2]
      by_cases e : i' = i ∧ q' = q
      · obtain ⟨rfl, rfl⟩ := e
        have := (List.getElem?_eq_some_iff.1 hj).1
        simp only [put2_self, h, Asked]
        omega
      · simp only [put2_ne _ e]
    armed := by
      intro i' hi' q' t' h1 h2
      have ha := hI.armed i' hi' q' t' h1 h2
      by_cases e : i' = i ∧ t' = t
      · obtain ⟨rfl, rfl⟩ := e
        obtain rfl := chunk_unique h1 h2 o1 ht
        simp [put2_self, Armed]
      · simp only [put2_ne _ e]
        refine ha.trans ?_
        by_cases e' : i' = i ∧ q' = q
        · obtain ⟨rfl, rfl⟩ := e'
          simp only [put2_self, h, Armed]
          have : t' ≠ t := fun e2 => e ⟨rfl, e2⟩
          omega
        · simp only [put2_ne _ e']
    setupOK := by
      intro i' hi' q'
      by_cases e : i' = i ∧ q' = q
      · obtain ⟨rfl, rfl⟩ := e
        simp only [put2_self]
        exact ⟨by omega, by omega, by omega, fun _ => rfl⟩
      · simp only [put2_ne _ e]; exact hI.setupOK i' hi' q'
    past := by
      intro l' hl' k' i' h' q'
      refine Iff.trans ?_ (hI.past l' hl' k' i' h' q')
      by_cases e : i' = i ∧ q' = q
      · obtain ⟨rfl, rfl⟩ := e
        simp [put2_self, h]
      · simp only [put2_ne _ e] }

/-- `receivers[neighbor]->get` and its special case for the first step -/
theorem inv_get (hv : P.Valid) {s : St C M} {G : Gh} (hI : P.Inv s G) {i j : Int} {q t k : Nat}
    (hi : i ∈ P.cells) (h : s.setup i q = .run t k) (ht : t < P.endT q)
    (hj : (P.nbr i)[k]? = some j) :
    P.Inv (P.request { s with setup := put2 s.setup i q (.run t (k + 1)) } i j t)
      { G with g := put3 G.g i j t true } := by
  have hok := hI.setupOK i hi q
  rw [h] at hok
  obtain ⟨o1, o2, o3, o4⟩ := hok
  have hjm : j ∈ P.nbr i := List.mem_of_getElem? hj
  have hk := (List.getElem?_eq_some_iff.1 hj).1
  have hg : G.g i j t = false := by
    rw [← Bool.not_eq_true, hI.asked i hi k j hj q t o1 ht, h]
    simp [Asked]
  have asked' : ∀ i' ∈ P.cells, ∀ k' j', (P.nbr i')[k']? = some j' → ∀ q' t', P.startT q' ≤ t' →
      t' < P.endT q' → (put3 G.g i j t true i' j' t' = true ↔
        Asked (put2 s.setup i q (.run t (k + 1)) i' q') t' k') := by
    intro i' hi' k' j' hj' q' t' h1 h2
    have ha := hI.asked i' hi' k' j' hj' q' t' h1 h2
    by_cases e : i' = i ∧ j' = j ∧ t' = t
    · obtain ⟨rfl, rfl, rfl⟩ := e
      obtain rfl := chunk_unique h1 h2 o1 ht
      have : k' = k := by
        obtain ⟨a1, a2⟩ := List.getElem?_eq_some_iff.1 hj
        obtain ⟨b1, b2⟩ := List.getElem?_eq_some_iff.1 hj'
        exact ((hv.nnd i' hi').getElem_inj_iff).1 (b2.trans a2.symm)
      subst this
      simp [put3_self, put2_self, Asked]
    · rw [put3_ne _ e, ha]
      by_cases e' : i' = i ∧ q' = q
      · obtain ⟨rfl, rfl⟩ := e'
        simp only [put2_self, h, Asked]
        have : ¬ (t' = t ∧ k' = k) := by
          rintro ⟨rfl, rfl⟩
          rw [hj] at hj'
          exact e ⟨rfl, (Option.some.inj hj').symm, rfl⟩
        omega
      · simp only [put2_ne _ e']
  have armed' : ∀ i' ∈ P.cells, ∀ q' t', P.startT q' ≤ t' → t' < P.endT q' →
      (s.armed i' t' = true ↔ Armed (put2 s.setup i q (.run t (k + 1)) i' q') t') := by
    intro i' hi' q' t' h1 h2
    refine (hI.armed i' hi' q' t' h1 h2).trans ?_
    by_cases e : i' = i ∧ q' = q
    · obtain ⟨rfl, rfl⟩ := e
      simp only [put2_self, h, Armed]
    · simp only [put2_ne _ e]
  have setupOK' : ∀ i' ∈ P.cells, ∀ q',
      P.SetupOK i' q' (put2 s.setup i q (.run t (k + 1)) i' q') := by
    intro i' hi' q'
    by_cases e : i' = i ∧ q' = q
    · obtain ⟨rfl, rfl⟩ := e
      simp only [put2_self]
      exact ⟨by omega, by omega, by omega, fun _ => by omega⟩
    · simp only [put2_ne _ e]; exact hI.setupOK i' hi' q'
  have past' : ∀ l' < P.L, ∀ k' i', (P.own l')[k']? = some i' → ∀ q',
      put2 s.setup i q (.run t (k + 1)) i' q' ≠ .idle ↔ Past (s.main l') q' k' := by
    intro l' hl' k' i' h' q'
    refine Iff.trans ?_ (hI.past l' hl' k' i' h' q')
    by_cases e : i' = i ∧ q' = q
    · obtain ⟨rfl, rfl⟩ := e
      simp [put2_self, h]
    · simp only [put2_ne _ e]
  by_cases h0 : 0 < t
  · have hb := hI.bufE i hi j hjm t h0
    rw [hg] at hb
    rw [request, if_pos h0]
    cases hd : G.d i j t with
    | false =>
      rw [hd] at hb
      simp only [bufGet]
      rw [show s.buf i j t = .absent from hb]
      exact
      { hI with
        bufE := by
          intro i' hi' j' hj' t' h1
          by_cases e : i' = i ∧ j' = j ∧ t' = t
          · obtain ⟨rfl, rfl, rfl⟩ := e
            simp only [put3_self, hd, expBuf]
          · simp only [put3_ne _ e]; exact hI.bufE i' hi' j' hj' t' h1
        futE := by
          intro i' hi' j' hj' t' h1
          by_cases e : i' = i ∧ j' = j ∧ t' = t
          · obtain ⟨rfl, rfl, rfl⟩ := e
            simp only [put3_self, hd, expFut]
          · simp only [put3_ne _ e]; exact hI.futE i' hi' j' hj' t' h1
        futZ := by
          intro i' hi' j' hj'
          have e : ¬ (i' = i ∧ j' = j ∧ 0 = t) := by omega
          simp only [put3_ne _ e]; exact hI.futZ i' hi' j' hj'
        asked := asked'
        armed := armed'
        setupOK := setupOK'
        past := past' }
    | true =>
      rw [hd] at hb
      simp only [bufGet]
      rw [show s.buf i j t = .stored ((P.ref t).2 j i) from hb]
      exact
      { hI with
        bufE := by
          intro i' hi' j' hj' t' h1
          by_cases e : i' = i ∧ j' = j ∧ t' = t
          · obtain ⟨rfl, rfl, rfl⟩ := e
            simp only [put3_self, hd, expBuf]
          · simp only [put3_ne _ e]; exact hI.bufE i' hi' j' hj' t' h1
        futE := by
          intro i' hi' j' hj' t' h1
          by_cases e : i' = i ∧ j' = j ∧ t' = t
          · obtain ⟨rfl, rfl, rfl⟩ := e
            simp only [put3_self, hd, expFut]
          · simp only [put3_ne _ e]; exact hI.futE i' hi' j' hj' t' h1
        futZ := by
          intro i' hi' j' hj'
          have e : ¬ (i' = i ∧ j' = j ∧ 0 = t) := by omega
          simp only [put3_ne _ e]; exact hI.futZ i' hi' j' hj'
        asked := asked'
        armed := armed'
        setupOK := setupOK'
        past := past' }
  · have ht0 : t = 0 := by omega
    subst ht0
    rw [request, if_neg h0]
    exact
    { hI with
      bufE := by
        intro i' hi' j' hj' t' h1
        have e : ¬ (i' = i ∧ j' = j ∧ t' = 0) := by omega
        simp only [put3_ne _ e]; exact hI.bufE i' hi' j' hj' t' h1
      futE := by
        intro i' hi' j' hj' t' h1
        have e : ¬ (i' = i ∧ j' = j ∧ t' = 0) := by omega
        simp only [put3_ne _ e]; exact hI.futE i' hi' j' hj' t' h1
      futZ := by
        intro i' hi' j' hj'
        by_cases e : i' = i ∧ j' = j ∧ 0 = 0
        · obtain ⟨rfl, rfl, _⟩ := e
          simp only [put3_self, expFut]
        · simp only [put3_ne _ e]; exact hI.futZ i' hi' j' hj'
      asked := asked'
      armed := armed'
      setupOK := setupOK'
      past := past' }

theorem inv_deliver {s : St C M} {G : Gh} (hI : P.Inv s G) {a b : List (Msg M)}
    {m : Msg M} (h : s.net = a ++ m :: b) :
    P.Inv (bufStore { s with net := a ++ b } m)
      { G with d := put3 G.d m.dst m.src m.t true } := by
  have hm : m ∈ s.net := by rw [h]; simp
  obtain ⟨c1, c2, c3⟩ := hI.netOK m hm
  obtain ⟨t1, t2, hd⟩ := (hI.netIff _ c1 _ c2 m.t).1 ⟨m, hm, rfl, rfl, rfl⟩
  have hnd := hI.netNd
  rw [h, List.map_append, List.map_cons] at hnd
  have hnd2 := List.nodup_middle.1 hnd
  rw [List.nodup_cons, ← List.map_append] at hnd2
  have dlt' : ∀ i j t, put3 G.d m.dst m.src m.t true i j t = true → 1 ≤ t ∧ t ≤ G.n j := by
    intro i j t ht
    by_cases e : i = m.dst ∧ j = m.src ∧ t = m.t
    · obtain ⟨rfl, rfl, rfl⟩ := e; exact ⟨t1, t2⟩
    · rw [put3_ne _ e] at ht; exact hI.dlt i j t ht
  have netIff' : ∀ i ∈ P.cells, ∀ j ∈ P.nbr i, ∀ t,
      (∃ m' ∈ a ++ b, m'.dst = i ∧ m'.src = j ∧ m'.t = t) ↔
        1 ≤ t ∧ t ≤ G.n j ∧ put3 G.d m.dst m.src m.t true i j t = false := by
    intro i hi j hj t
    by_cases e : i = m.dst ∧ j = m.src ∧ t = m.t
    · obtain ⟨rfl, rfl, rfl⟩ := e
      simp only [put3_self, Bool.true_eq_false, and_false, iff_false]
      rintro ⟨m', hm', e1, e2, e3⟩
      exact hnd2.1 (List.mem_map.2 ⟨m', hm', by rw [e1, e2, e3]⟩)
    · rw [put3_ne _ e, ← hI.netIff i hi j hj t, h]
      constructor
      · rintro ⟨m', hm', hh⟩
        refine ⟨m', ?_, hh⟩
        rcases List.mem_append.1 hm' with x | x <;> simp [x]
      · rintro ⟨m', hm', hh⟩
        refine ⟨m', ?_, hh⟩
        simp only [List.mem_append, List.mem_cons] at hm'
        rcases hm' with x | x | x
        · simp [x]
        · subst x
          exact absurd ⟨hh.1.symm, hh.2.1.symm, hh.2.2.symm⟩ e
        · simp [x]
  have netOK' : ∀ m' ∈ a ++ b, m'.dst ∈ P.cells ∧ m'.src ∈ P.nbr m'.dst ∧
      m'.val = (P.ref m'.t).2 m'.src m'.dst := by
    intro m' hm'
    refine hI.netOK m' ?_
    rw [h]
    rcases List.mem_append.1 hm' with x | x <;> simp [x]
  have hbuf := hI.bufE _ c1 _ c2 _ t1
  have futZ' : ∀ (f : Fut M), ∀ i' ∈ P.cells, ∀ j' ∈ P.nbr i',
      put3 s.fut m.dst m.src m.t f i' j' 0 = expFut (G.g i' j' 0) true P.dflt := by
    intro f i' hi' j' hj'
    have e : ¬ (i' = m.dst ∧ j' = m.src ∧ 0 = m.t) := by omega
    simp only [put3_ne _ e]; exact hI.futZ i' hi' j' hj'
  rw [hd] at hbuf
  cases hg : G.g m.dst m.src m.t with
  | false =>
    rw [hg] at hbuf
    simp only [bufStore]
    rw [show s.buf m.dst m.src m.t = .absent from hbuf]
    exact
    { hI with
      dlt := dlt'
      netIff := netIff'
      netOK := netOK'
      netNd := hnd2.2
      bufE := by
        intro i' hi' j' hj' t' h1
        by_cases e : i' = m.dst ∧ j' = m.src ∧ t' = m.t
        · obtain ⟨rfl, rfl, rfl⟩ := e
          simp only [put3_self, hg, expBuf, c3]
        · simp only [put3_ne _ e]; exact hI.bufE i' hi' j' hj' t' h1
      futE := by
        intro i' hi' j' hj' t' h1
        have hf := hI.futE i' hi' j' hj' t' h1
        by_cases e : i' = m.dst ∧ j' = m.src ∧ t' = m.t
        · obtain ⟨rfl, rfl, rfl⟩ := e
          rw [hf]
          simp only [put3_self, hg, expFut]
        · simp only [put3_ne _ e]; exact hf }
  | true =>
    rw [hg] at hbuf
    simp only [bufStore]
    rw [show s.buf m.dst m.src m.t = .promised from hbuf]
    exact
    { hI with
      dlt := dlt'
      netIff := netIff'
      netOK := netOK'
      netNd := hnd2.2
      bufE := by
        intro i' hi' j' hj' t' h1
        by_cases e : i' = m.dst ∧ j' = m.src ∧ t' = m.t
        · obtain ⟨rfl, rfl, rfl⟩ := e
          simp only [put3_self, hg, expBuf]
        · simp only [put3_ne _ e]; exact hI.bufE i' hi' j' hj' t' h1
      futE := by
        intro i' hi' j' hj' t' h1
        by_cases e : i' = m.dst ∧ j' = m.src ∧ t' = m.t
        · obtain ⟨rfl, rfl, rfl⟩ := e
          simp only [put3_self, hg, expFut, c3]
        · simp only [put3_ne _ e]; exact hI.futE i' hi' j' hj' t' h1
      futZ := futZ' _ }

/-- The chain of futures makes updates run in order. -/
theorem turn (hv : P.Valid) {s : St C M} {G : Gh} (hI : P.Inv s G) {i : Int} {q t : Nat}
    (hi : i ∈ P.cells) (hq : P.startT q ≤ t ∧ t < P.endT q) (hr : s.ran i t = false)
    (hp : P.prevReady s i q t) : G.n i = t := by
  have hle : G.n i ≤ t := by
    by_contra hlt
    have := (hI.ran i hi t).2 (by omega)
    rw [hr] at this
    exact Bool.noConfusion this
  refine le_antisymm hle ?_
  unfold prevReady at hp
  split at hp
  · rename_i ht
    cases q with
    | zero => simp [startT] at ht; omega
    | succ q =>
      have hm := more_of_chunk hq.1 hq.2
      simp only at hp
      rw [chunkReady_iff hv (more_mono hm (by omega))] at hp
      have hpos := chunk_pos hv (more_mono hm (q' := q) (by omega))
      have he := endT_of_more hm
      have := (hI.ran i hi _).1 hp.2
      omega
  · have := (hI.ran i hi _).1 hp
    omega

/-- An update sees what it would see in the synchronous simulation. -/
theorem result_eq (_hv : P.Valid) {s : St C M} {G : Gh} (hI : P.Inv s G) {i : Int} {t : Nat}
    (hi : i ∈ P.cells) (ht : G.n i = t) (hf : ∀ j ∈ P.nbr i, ∃ m, s.fut i j t = .ready m) :
    P.result s i t = P.refResult t i := by
  unfold result refResult
  rw [hI.cell i hi, ht]
  congr 1
  funext j
  unfold inbox
  split
  · rename_i hj
    obtain ⟨m, hm⟩ := hf j hj
    rw [hm]
    rcases Nat.eq_zero_or_pos t with h0 | h0
    · subst h0
      have := hI.futZ i hi j hj
      rw [hm] at this
      cases hg : G.g i j 0 with
      | false => rw [hg] at this; simp [expFut] at this
      | true =>
        rw [hg] at this
        simp only [expFut, Fut.ready.injEq] at this
        rw [this]; rfl
    · have := hI.futE i hi j hj t h0
      rw [hm] at this
      cases hg : G.g i j t with
      | false => rw [hg] at this; simp [expFut] at this
      | true =>
        cases hd : G.d i j t with
        | false => rw [hg, hd] at this; simp [expFut] at this
        | true =>
          rw [hg, hd] at this
          simp only [expFut, Fut.ready.injEq] at this
          rw [this]
  · rfl

theorem inv_update (hv : P.Valid) {s : St C M} {G : Gh} (hI : P.Inv s G) {i : Int} {q t : Nat}
    (hi : i ∈ P.cells) (hq : P.startT q ≤ t ∧ t < P.endT q) (hr : s.ran i t = false)
    (hf : ∀ j ∈ P.nbr i, ∃ m, s.fut i j t = .ready m) (hp : P.prevReady s i q t) :
    P.Inv { s with
        ran := put2 s.ran i t true
        cell := Function.update s.cell i (P.result s i t).1
        net := s.net ++ (P.outgoing i (P.result s i t).2).map
          fun p => { dst := p.1, src := i, t := t + 1, val := p.2 } }
      { G with n := Function.update G.n i (t + 1) } := by
  have hn := turn hv hI hi hq hr hp
  have hres := result_eq hv hI hi hn hf
  have htT : t < P.T := lt_of_lt_of_le hq.2 (endT_le_T q)
  have hsend := hv.send i hi t htT
  have honce := hv.once i hi t htT
  rw [hres]
  exact
  { hI with
    ran := by
      intro i' hi' t'
      have := hI.ran i' hi' t'
      by_cases e : i' = i
      · subst e
        simp only [Function.update_self]
        by_cases et : t' = t
        · subst et; simp [put2_self]
        · simp only [put2_ne _ (show ¬ (i' = i' ∧ t' = t) by simp [et])]
          rw [this]; omega
      · simp only [Function.update_of_ne e, put2_ne _ (show ¬ (i' = i ∧ t' = t) by simp [e])]
        exact this
    nT := by
      intro i' hi'
      by_cases e : i' = i
      · subst e; simp only [Function.update_self]; omega
      · simp only [Function.update_of_ne e]; exact hI.nT i' hi'
    cell := by
      intro i' hi'
      by_cases e : i' = i
      · subst e; simp only [Function.update_self]; exact (ref_succ_cell P t i').symm
      · simp only [Function.update_of_ne e]; exact hI.cell i' hi'
    dlt := by
      intro i' j' t' h'
      have := hI.dlt i' j' t' h'
      by_cases e : j' = i
      · subst e; simp only [Function.update_self]; omega
      · simpa only [Function.update_of_ne e] using this
    netIff := by
      intro i' hi' j' hj' t'
      have base := hI.netIff i' hi' j' hj' t'
      by_cases e : j' = i
      · subst e
        simp only [Function.update_self]
        by_cases et : t' = t + 1
        · subst et
          have hd : G.d i' j' (t + 1) = false := by
            by_contra hc
            have := hI.dlt i' j' (t + 1) (by simpa using hc)
            omega
          refine ⟨fun _ => ⟨by omega, by omega, hd⟩, fun _ => ?_⟩
          obtain ⟨p, hp1, hp2⟩ := (outgoing_keys j' hsend i').2 ((hv.sym i' hi' j' hj').2)
          refine ⟨_, List.mem_append_right _ (List.mem_map_of_mem hp1), hp2, rfl, rfl⟩
        · constructor
          · rintro ⟨m, hm, e1, e2, e3⟩
            rcases List.mem_append.1 hm with x | x
            · have := base.1 ⟨m, x, e1, e2, e3⟩
              exact ⟨this.1, by omega, this.2.2⟩
            · obtain ⟨p, _, rfl⟩ := List.mem_map.1 x
              exact absurd e3.symm et
          · rintro ⟨h1, h2, h3⟩
            obtain ⟨m, hm, hh⟩ := base.2 ⟨h1, by omega, h3⟩
            exact ⟨m, List.mem_append_left _ hm, hh⟩
      · simp only [Function.update_of_ne e]
        rw [← base]
        constructor
        · rintro ⟨m, hm, e1, e2, e3⟩
          rcases List.mem_append.1 hm with x | x
          · exact ⟨m, x, e1, e2, e3⟩
          · obtain ⟨p, _, rfl⟩ := List.mem_map.1 x
            exact absurd e2.symm e
        · rintro ⟨m, hm, hh⟩
          exact ⟨m, List.mem_append_left _ hm, hh⟩
    netOK := by
      intro m hm
      rcases List.mem_append.1 hm with x | x
      · exact hI.netOK m x
      · obtain ⟨p, hp1, rfl⟩ := List.mem_map.1 x
        have hk := (outgoing_keys i hsend p.1).1 ⟨p, hp1, rfl⟩
        obtain ⟨s1, s2⟩ := hv.sym i hi p.1 hk
        exact ⟨s1, s2, by
          rw [ref_succ_msg]; exact outgoing_val i honce hp1⟩
    netNd := by
      rw [List.map_append, List.nodup_append']
      refine ⟨hI.netNd, ?_, ?_⟩
      · rw [List.map_map]
        have h1 := outgoing_nodup i (hv.nnd i hi) honce
        have := h1.map (f := fun j : Int => (j, i, t + 1)) (by
          intro a b hab
          simpa using hab)
        rw [List.map_map] at this
        exact this
      · intro key h1 h2
        obtain ⟨m, hm, rfl⟩ := List.mem_map.1 h1
        obtain ⟨m', hm', e⟩ := List.mem_map.1 h2
        obtain ⟨p, hp1, rfl⟩ := List.mem_map.1 hm'
        simp only [Prod.mk.injEq] at e
        obtain ⟨o1, o2, _⟩ := hI.netOK m hm
        obtain ⟨_, l2, _⟩ := (hI.netIff _ o1 _ o2 m.t).1 ⟨m, hm, rfl, rfl, rfl⟩
        rw [← e.2.1, ← e.2.2] at l2
        omega
    retDone := by
      intro l hl q' h' i' hi'
      by_cases e : i' = i
      · subst e
        have := hI.retDone l hl q' h' i' hi'
        omega
      · simp only [Function.update_of_ne e]; exact hI.retDone l hl q' h' i' hi' }

theorem all_ran (hv : P.Valid) {s : St C M} {G : Gh} (hI : P.Inv s G) {l q : Nat} (hl : l < P.L)
    (h : s.main l = .wait q) (hr : ∀ i ∈ P.own l, ∀ q', q = q' + 1 → P.chunkReady s i q') :
    ∀ i ∈ P.own l, G.n i = P.T := by
  intro i hi
  have hc := own_mem_cells hl hi
  have hok := hI.mainOK l hl
  rw [h] at hok
  refine le_antisymm (hI.nT i hc) ?_
  cases q with
  | zero => rw [T_zero_of_not_more hok.1]; exact Nat.zero_le _
  | succ q =>
    have hm := hok.2 q (by omega)
    have := (chunkReady_iff hv hm).1 (hr i hi q rfl)
    have := (hI.ran i hc _).1 this.2
    have hpos := chunk_pos hv hm
    rw [endT_last hok.1] at *
    omega

/-- **The invariant is inductive.** -/
theorem inv_step (hv : P.Valid) {s s' : St C M} {G : Gh} (hI : P.Inv s G) (hs : P.Step s s') :
    ∃ G', P.Inv s' G' := by
  cases hs with
  | construct i hb hi h =>
    exact ⟨G, { hI with
      reg := by
        intro i'
        by_cases e : i' = i
        · subst e; simp only [Function.update_self]; omega
        · simp only [Function.update_of_ne e]; exact hI.reg i' }⟩
  | enter l q hb hl h hm =>
    refine ⟨G, inv_main hI hl ?_ ⟨hm, Nat.zero_le _⟩ (by simp) ?_⟩
    · intro k i _ q'; rw [h]; simp [Past]
    · intro q'; rw [h]; simp [Att]
  | leave l q hb hl h hm =>
    have := hI.mainOK l hl
    rw [h] at this
    refine ⟨G, inv_main hI hl ?_ ⟨hm, this⟩ (by simp) ?_⟩
    · intro k i _ q'; rw [h]; simp [Past]
    · intro q'; rw [h]; simp [Att]
  | launch l q k i hb hl h hk => exact ⟨G, inv_launch hv hI hl h hk⟩
  | attach l q k hb hl h hk hne => exact ⟨G, inv_attach hI hl h hk⟩
  | attachEmpty l q k hb hl h hne => exact absurd hne (hv.ne l hl)
  | pass l q hb hl h hs =>
    have hok := hI.mainOK l hl
    rw [h] at hok
    refine ⟨G, inv_main hI hl ?_ ?_ (by simp) ?_⟩
    · intro k i _ q'; rw [h]; simp [Past]; omega
    · intro q' hq'; exact more_mono hok (by omega)
    · intro q'; rw [h]; simp [Att]; omega
  | finish l q hb hl h hr =>
    have hok := hI.mainOK l hl
    rw [h] at hok
    refine ⟨G, inv_main hI hl ?_ hok ?_ ?_⟩
    · intro k i _ q'; rw [h]; simp [Past]
    · intro q' _; exact all_ran hv hI hl h hr
    · intro q'; rw [h]; simp [Att]
  | signal l q i hb hl ha hs hi hr hm => exact ⟨G, inv_signal hI⟩
  | signalLate l q q' i hb hl ha hs hi hr hm => exact ⟨G, { hI with bad := Or.inr rfl }⟩
  | begin i q hb hi h hc hf =>
    refine ⟨G, inv_setup hI ?_ ?_ ?_ (by simp [h]) (by simp)⟩
    · intro t k h1 h2 hk
      rw [h]; simp [Asked]; omega
    · intro t h1 h2
      rw [h]; simp [Armed]; omega
    · have hp : P.more q := by
        obtain ⟨l, hl, hil⟩ := mem_cells.1 hi
        obtain ⟨k, hk⟩ := List.getElem?_of_mem hil
        have hp := (hI.past l hl k i hk q).1 (by simp [h])
        have hok := hI.mainOK l hl
        cases hmn : s.main l with
        | head q' => rw [hmn] at hp hok; exact hok q hp
        | launch q' k' => rw [hmn] at hp hok; simp only [Past] at hp; exact more_mono hok.1 (by omega)
        | sem q' => rw [hmn] at hp hok; exact more_mono hok hp
        | wait q' => rw [hmn] at hp hok; exact hok.2 q hp
        | ret q' => rw [hmn] at hp hok; exact hok.2 q hp
      have := chunk_pos hv hp
      exact ⟨le_refl _, by omega, Nat.zero_le _, fun _ => rfl⟩
  | get i j q t k hb hi h ht hj => exact ⟨_, inv_get hv hI hi h ht hj⟩
  | arm i q t k hb hi h ht hk => exact ⟨G, inv_arm hI hi h ht hk⟩
  | done i q t k hb hi h ht =>
    have hok := hI.setupOK i hi q
    rw [h] at hok
    refine ⟨G, inv_setup hI ?_ ?_ trivial (by simp [h]) (by simp)⟩
    · intro t' k' h1 h2 hk
      rw [h]; simp [Asked]; omega
    · intro t' h1 h2
      rw [h]; simp [Armed]; omega
  | update i q t hb hi hq ha hr hf hp hs => exact ⟨_, inv_update hv hI hi hq hr hf hp⟩
  | updateThrows i q t hb hi hq ha hr hf hp hs =>
    have hn := turn hv hI hi hq hr hp
    rw [result_eq hv hI hi hn hf] at hs
    exact absurd (hv.send i hi t (lt_of_lt_of_le hq.2 (endT_le_T q))) hs
  | deliver a b m hb h => exact ⟨_, inv_deliver hI h⟩

theorem inv_exec (hv : P.Valid) {n : Nat} {s : St C M} (h : P.Exec n s) : ∃ G, P.Inv s G := by
  induction h with
  | start => exact ⟨_, P.inv_start⟩
  | step _ hs ih =>
    obtain ⟨G, hI⟩ := ih
    exact inv_step hv hI hs

end LGD.Dataflow.Sim
