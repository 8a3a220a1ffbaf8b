import Verif.Comm.LinkProg

/-!
# Links at a glance

States of ranks and links without the details of the message passing.
-/

namespace LGD.LinkProg
open LGD.Mpi

variable {σ β : Type}

/-- links fit together -/
structure NetOK (T : Net σ β) : Prop where
  sym : ∀ a b, a ∈ T.src b ↔ b ∈ T.dst a
  ne : ∀ a b, b ∈ T.dst a → a ≠ b
  lt : ∀ a b, b ∈ T.dst a → a < T.N ∧ b < T.N
  src : ∀ a, (T.src a).Nodup
  dst : ∀ a, (T.dst a).Nodup

/-- state of a link: no receive was posted yet; a receive was posted; a message was sent and can be had without waiting for the sender; no more messages -/
inductive LS (β : Type) where
  | fresh
  | posted
  | avail (m : List β)
  | fin

/-- the link from `a` to `b` is in the given state -/
def Link (T : Net σ β) (s : SS σ β) (lk : Ch → Lnk σ β) (a b : Nat) : LS β → Prop
  | .fresh => lk ⟨a, b, tag⟩ = .idle ∧ Free s b (hr a)
  | .posted => lk ⟨a, b, tag⟩ = .posted (first T b a)
  | .avail m =>
    if T.fixed then lk ⟨a, b, tag⟩ = .idle ∧ (rbs a (T.len a b)).map (s.ranks b).mem = m.map Val.cell
    else lk ⟨a, b, tag⟩ = .half (sbs b m.length) ∧ (s.ranks b).mem (.rs a) = .size m.length ∧
      (sbs b m.length).map (s.ranks a).mem = m.map Val.cell
  | .fin => lk ⟨a, b, tag⟩ = .idle

/-- programs, local states, links -/
structure View (T : Net σ β) (s : SS σ β) (lk : Ch → Lnk σ β) (Q : Nat → P σ β) (X : Nat → σ) (A : Nat → Nat → LS β) : Prop where
  inv : G T s lk
  proc : ∀ r, (s.ranks r).proc = Q r
  st : ∀ r, (s.ranks r).mem .st = .st (X r)
  link : ∀ a b, b ∈ T.dst a → Link T s lk a b (A a b)
  rest : ∀ c : Ch, ¬ (c.tag = tag ∧ c.dst ∈ T.dst c.src) → lk c = .idle

def Sees (T : Net σ β) (s : SS σ β) (Q : Nat → P σ β) (X : Nat → σ) (A : Nat → Nat → LS β) : Prop := ∃ lk, View T s lk Q X A

/-- one link changes -/
def upd2 (A : Nat → Nat → LS β) (a b : Nat) (v : LS β) : Nat → Nat → LS β := fun a' b' => if a' = a ∧ b' = b then v else A a' b'

/-- Rank `x` did something on the link from `a` to `b`. -/
structure Fr (x a b : Nat) (s t : SS σ β) : Prop where
  proc : ∀ z, z ≠ x → (t.ranks z).proc = (s.ranks z).proc
  mem : ∀ z l, ¬ (z = a ∧ owner l = some (hs b)) → ¬ (z = b ∧ owner l = some (hr a)) → l ≠ .st → (t.ranks z).mem l = (s.ranks z).mem l
  st : ∀ z, z ≠ x → (t.ranks z).mem .st = (s.ranks z).mem .st
  free : ∀ z h, ¬ (z = a ∧ h = hs b) → ¬ (z = b ∧ h = hr a) → Free s z h → Free t z h

theorem Fr.refl (x a b : Nat) (s : SS σ β) : Fr x a b s s := ⟨fun _ _ => rfl, fun _ _ _ _ _ => rfl, fun _ _ => rfl, fun _ _ _ _ h => h⟩

theorem Fr.trans {x a b : Nat} {s t u : SS σ β} (h : Fr x a b s t) (h' : Fr x a b t u) : Fr x a b s u :=
  ⟨fun z hz => (h'.proc z hz).trans (h.proc z hz), fun z l h1 h2 h3 => (h'.mem z l h1 h2 h3).trans (h.mem z l h1 h2 h3),
    fun z hz => (h'.st z hz).trans (h.st z hz), fun z w h1 h2 hf => h'.free z w h1 h2 (h.free z w h1 h2 hf)⟩

variable {T : Net σ β} {s t : SS σ β} {lk lk' : Ch → Lnk σ β} {eager : Ch → Nat → Bool}

/-- only rank `x` is affected -/
theorem Fr.of_rank {x a b : Nat} (h1 : ∀ z, z ≠ x → t.ranks z = s.ranks z)
    (h2 : ∀ l, ¬ (x = a ∧ owner l = some (hs b)) → ¬ (x = b ∧ owner l = some (hr a)) → l ≠ .st → (t.ranks x).mem l = (s.ranks x).mem l)
    (h3 : ∀ h, ¬ (x = a ∧ h = hs b) → ¬ (x = b ∧ h = hr a) → Free s x h → Free t x h) : Fr x a b s t := by
  refine ⟨fun z hz => by rw [h1 z hz], fun z l ha hb hl => ?_, fun z hz => by rw [h1 z hz], fun z h ha hb hf => ?_⟩
  · by_cases hz : z = x
    · subst hz; exact h2 l ha hb hl
    · rw [h1 z hz]
  · by_cases hz : z = x
    · subst hz; exact h3 h ha hb hf
    · unfold Free at hf ⊢
      rw [h1 z hz]; exact hf

theorem mem_sbs {q n : Nat} {l : Loc} (h : l ∈ sbs q n) : owner l = some (hs q) := by
  obtain ⟨i, -, rfl⟩ := List.mem_map.1 h
  rfl

theorem mem_rbs {q n : Nat} {l : Loc} (h : l ∈ rbs q n) : owner l = some (hr q) := by
  obtain ⟨i, -, rfl⟩ := List.mem_map.1 h
  rfl

theorem mem_first {r q : Nat} {l : Loc} (h : l ∈ first T r q) : owner l = some (hr q) := by
  unfold first at h
  split at h
  · exact mem_rbs h
  · rw [List.mem_singleton] at h; subst h; rfl

theorem nodup_sbs (q n : Nat) : (sbs q n).Nodup := List.Nodup.map (fun a b h => by cases h; rfl) List.nodup_range

theorem nodup_rbs (q n : Nat) : (rbs q n).Nodup := List.Nodup.map (fun a b h => by cases h; rfl) List.nodup_range

@[simp] theorem length_sbs (q n : Nat) : (sbs q n).length = n := by simp [sbs]

@[simp] theorem length_rbs (q n : Nat) : (rbs q n).length = n := by simp [rbs]

theorem map_store {V : Type} : ∀ {ls : List Loc} {vs : List V} {mem : Loc → V}, ls.Nodup → ls.length = vs.length → ls.map (store ls vs mem) = vs
  | [], [], _, _, _ => rfl
  | [], _ :: _, _, _, h => by simp at h
  | _ :: _, [], _, _, h => by simp at h
  | l :: ls, v :: vs, mem, hn, h => by
    rw [List.nodup_cons] at hn
    rw [List.map_cons, store, map_store hn.2 (by simpa using h), store_of_not_mem hn.1, Function.update_self]

theorem hs_ne_hr (p q : Nat) : hs p ≠ hr q := by unfold hs hr; omega

theorem hs_inj {p q : Nat} (h : hs p = hs q) : p = q := by unfold hs at h; omega

theorem hr_inj {p q : Nat} (h : hr p = hr q) : p = q := by unfold hr at h; omega

/-- links whose memory and operations didn't change -/
theorem Link.congr {a b : Nat} {v : LS β} (h : Link T s lk a b v) (h1 : lk' ⟨a, b, tag⟩ = lk ⟨a, b, tag⟩)
    (h2 : ∀ l, owner l = some (hr a) → (t.ranks b).mem l = (s.ranks b).mem l)
    (h3 : ∀ l, owner l = some (hs b) → (t.ranks a).mem l = (s.ranks a).mem l) (h4 : Free s b (hr a) → Free t b (hr a)) :
    Link T t lk' a b v := by
  cases v with
  | fresh => exact ⟨h1.trans h.1, h4 h.2⟩
  | posted => exact h1.trans h
  | fin => exact h1.trans h
  | avail m =>
    unfold Link at h ⊢
    dsimp only at h ⊢
    split
    · rename_i hf
      rw [if_pos hf] at h
      refine ⟨h1.trans h.1, ?_⟩
      rw [← h.2]
      exact List.map_congr_left fun l hl => h2 l (mem_rbs hl)
    · rename_i hf
      rw [if_neg hf] at h
      refine ⟨h1.trans h.1, (h2 _ rfl).trans h.2.1, ?_⟩
      rw [← h.2.2]
      exact List.map_congr_left fun l hl => h3 l (mem_sbs hl)

/-- the view after an operation on one link -/
theorem View.step {Q : Nat → P σ β} {X : Nat → σ} {A : Nat → Nat → LS β} (h : View T s lk Q X A) {x a b : Nat} (hf : Fr x a b s t) (hab : b ∈ T.dst a)
    (hG : G T t lk') (hl : ∀ c, c ≠ ⟨a, b, tag⟩ → lk' c = lk c) {p : P σ β} (hp : (t.ranks x).proc = p) {y : σ}
    (hy : (t.ranks x).mem .st = .st y) {v : LS β} (hv : Link T t lk' a b v) :
    Sees T t (Function.update Q x p) (Function.update X x y) (upd2 A a b v) := by
  refine ⟨lk', hG, fun r => ?_, fun r => ?_, fun a' b' hab' => ?_, fun c hc => ?_⟩
  · by_cases hr : r = x
    · subst hr; rw [hp, Function.update_self]
    · rw [hf.proc r hr, h.proc, Function.update_of_ne hr]
  · by_cases hr : r = x
    · subst hr; rw [hy, Function.update_self]
    · rw [hf.st r hr, h.st, Function.update_of_ne hr]
  · unfold upd2
    split
    · rename_i he
      obtain ⟨rfl, rfl⟩ := he
      exact hv
    · rename_i he
      refine (h.link a' b' hab').congr (hl _ fun e => he ?_) (fun l hl' => ?_) (fun l hl' => ?_) (hf.free _ _ ?_ ?_)
      · cases e; exact ⟨rfl, rfl⟩
      · refine hf.mem _ _ ?_ ?_ (fun e => by subst e; cases hl')
        · rintro ⟨-, e⟩
          rw [hl', Option.some.injEq] at e
          exact hs_ne_hr _ _ e.symm
        · rintro ⟨e1, e⟩
          rw [hl', Option.some.injEq] at e
          exact he ⟨hr_inj e, e1⟩
      · refine hf.mem _ _ ?_ ?_ (fun e => by subst e; cases hl')
        · rintro ⟨e1, e⟩
          rw [hl', Option.some.injEq] at e
          exact he ⟨e1, hs_inj e⟩
        · rintro ⟨-, e⟩
          rw [hl', Option.some.injEq] at e
          exact hs_ne_hr _ _ e
      · rintro ⟨-, e⟩
        exact hs_ne_hr _ _ e.symm
      · rintro ⟨e1, e⟩
        exact he ⟨hr_inj e, e1⟩
  · rw [hl c fun e => hc (by subst e; exact ⟨rfl, hab⟩)]
    exact h.rest c hc

theorem cellsOf_map (m : List β) : cellsOf (m.map Val.cell : List (Val σ β)) = m := by
  induction m with
  | nil => rfl
  | cons b m ih => rw [List.map_cons, cellsOf, ih]

theorem fst_fill (q : Nat) (m : List β) : (fill q m : List (Loc × Val σ β)).map Prod.fst = sbs q m.length := by
  unfold fill
  exact List.map_fst_zip (by simp)

theorem snd_fill (q : Nat) (m : List β) : (fill q m : List (Loc × Val σ β)).map Prod.snd = m.map Val.cell := by
  unfold fill
  exact List.map_snd_zip (by simp)

/-! ## Local computations, charging -/

theorem run_comp {Q : Nat → P σ β} {X : Nat → σ} {A : Nat → Nat → LS β} (h : Sees T s Q X A) {r m : Nat} {k : P σ β} (hp : Q r = compP T r m k)
    {y : σ} (hc : T.comp r m (X r) = some y) :
    ∃ t, RunTo eager s t ∧ Sees T t (Function.update Q r k) (Function.update X r y) A := by
  obtain ⟨lk, h⟩ := h
  obtain ⟨t1, r1, g1, p1, m1, o1, f1⟩ := op_read (eager := eager) h.inv ((h.proc r).trans hp)
    (busyRead_of_write (h.inv.idle_mem fun l hl w hw => by rw [List.mem_singleton] at hl; subst hl; cases hw))
  rw [List.map_singleton, h.st r, withSt, hc] at p1
  obtain ⟨t2, r2, g2, p2, m2, o2, f2⟩ := op_write (eager := eager) g1 p1
    (g1.idle_mem fun l hl w hw => by simp only [List.map_singleton, List.mem_singleton] at hl; subst hl; cases hw)
  simp only [List.map_singleton, store, m1] at m2
  refine ⟨t2, r1.trans r2, lk, g2, fun z => ?_, fun z => ?_, fun a b hab => ?_, h.rest⟩
  · by_cases hz : z = r
    · subst hz; rw [p2, Function.update_self]
    · rw [o2 z hz, o1 z hz, h.proc, Function.update_of_ne hz]
  · by_cases hz : z = r
    · subst hz; rw [m2, Function.update_self, Function.update_self]
    · rw [o2 z hz, o1 z hz, h.st, Function.update_of_ne hz]
  · have hm : ∀ z l, l ≠ .st → (t2.ranks z).mem l = (s.ranks z).mem l := by
      intro z l hl
      by_cases hz : z = r
      · subst hz; rw [m2, Function.update_of_ne hl]
      · rw [o2 z hz, o1 z hz]
    refine (h.link a b hab).congr rfl (fun l hl => hm _ _ fun e => by subst e; cases hl) (fun l hl => hm _ _ fun e => by subst e; cases hl) fun hf => ?_
    by_cases hz : b = r
    · subst hz; exact f2 _ (f1 _ hf)
    · unfold Free at hf ⊢
      rw [o2 b hz, o1 b hz]; exact hf

theorem run_recv (hT : NetOK T) {Q : Nat → P σ β} {X : Nat → σ} {A : Nat → Nat → LS β} (h : Sees T s Q X A) {r q : Nat} {k : P σ β}
    (hq : q ∈ T.src r) (hp : Q r = recvP T r q k) (hA : A q r = .fresh) :
    ∃ t, RunTo eager s t ∧ Sees T t (Function.update Q r k) X (upd2 A q r .posted) := by
  obtain ⟨lk, h⟩ := h
  have hq' := (hT.sym _ _).1 hq
  have hl := h.link q r hq'
  rw [hA] at hl
  obtain ⟨t1, r1, g1, p1, m1, o1, f1⟩ := op_post (eager := eager) h.inv ((h.proc r).trans hp) hl.1 hq (fun l hl => mem_first hl) hl.2
  have := h.step (x := r) (a := q) (b := r) (Fr.of_rank o1 (fun l _ _ _ => by rw [m1]) fun w _ h2 => f1 w fun e => h2 ⟨rfl, e⟩) hq' g1
    (fun c hc => Function.update_of_ne hc ..) p1 (y := X r) (by rw [m1, h.st]) (v := .posted) (by unfold Link; simp)
  rw [Function.update_eq_self] at this
  exact ⟨t1, r1, this⟩

/-! ## Sending -/

theorem run_put (hT : NetOK T) {Q : Nat → P σ β} {X : Nat → σ} {A : Nat → Nat → LS β} (h : Sees T s Q X A) {r q : Nat} {k : P σ β}
    (hq : q ∈ T.dst r) (hp : Q r = putP T r q k) (hA : A r q = .posted) (hlen : T.fixed = true → (T.save r q (X r)).length = T.len r q) :
    ∃ t, RunTo eager s t ∧ Sees T t (Function.update Q r k) X (upd2 A r q (.avail (T.save r q (X r)))) := by
  obtain ⟨lk, h⟩ := h
  have hne := hT.ne r q hq
  have hl := h.link r q hq
  rw [hA] at hl
  change lk ⟨r, q, tag⟩ = _ at hl
  obtain ⟨t1, r1, g1, p1, m1, fr1, o1, f1⟩ := op_wait_acc (eager := eager) h.inv ((h.proc r).trans hp) (by rw [hl]; intro ls e; cases e)
  obtain ⟨t2, r2, g2, p2, m2, o2, f2⟩ := op_read (eager := eager) g1 p1
    (busyRead_of_write (g1.idle_mem fun l hl w hw => by rw [List.mem_singleton] at hl; subst hl; cases hw))
  rw [List.map_singleton, m1, h.st r, withSt] at p2
  set m := T.save r q (X r) with hm
  obtain ⟨t3, r3, g3, p3, m3, o3, f3⟩ := op_write (eager := eager) g2 p2
    (g2.idle_mem fun l hl w hw => by rw [fst_fill] at hl; rw [mem_sbs hl] at hw; cases hw; exact f2 _ fr1)
  rw [fst_fill, snd_fill, m2, m1] at m3
  have F3 : Fr r r q s t3 := by
    refine Fr.of_rank (fun z hz => by rw [o3 z hz, o2 z hz, o1 z hz]) (fun l h1 _ _ => ?_) fun w _ _ hf => f3 _ (f2 _ (f1 _ hf))
    rw [m3, store_of_not_mem fun hl => h1 ⟨rfl, mem_sbs hl⟩]
  have hst3 : (t3.ranks r).mem .st = .st (X r) := by rw [m3, store_of_not_mem (fun hl => by cases mem_sbs hl), h.st]
  have hsb3 : (sbs q m.length).map (t3.ranks r).mem = m.map Val.cell := by rw [m3]; exact map_store (nodup_sbs _ _) (by simp)
  split at p3
  · -- fixed size
    rename_i hfix
    have e1 : first T q r = rbs r (T.len r q) := by unfold first; rw [if_pos hfix]
    obtain ⟨t4, r4, g4, p4, m4, n4, o4, f4⟩ := op_send (eager := eager) g3 hne p3 hl hq (fun l hl => mem_sbs hl) (by simp [e1, hlen hfix])
    have hm4 := congrArg Rank.mem n4
    simp only [hsb3, e1] at hm4
    have F4 : Fr r r q t3 t4 := by
      refine ⟨fun z hz => ?_, fun z l h1 h2 _ => ?_, fun z hz => ?_, fun z w h1 h2 hf => ?_⟩
      · by_cases hzq : z = q
        · subst hzq; rw [n4]
        · rw [o4 z hz hzq]
      · by_cases hz : z = r
        · subst hz; rw [m4]
        · by_cases hzq : z = q
          · subst hzq
            rw [hm4, store_of_not_mem fun hl => h2 ⟨rfl, mem_rbs hl⟩]
          · rw [o4 z hz hzq]
      · by_cases hzq : z = q
        · subst hzq
          rw [hm4, store_of_not_mem fun hl => by cases mem_rbs hl]
        · rw [o4 z hz hzq]
      · by_cases hz : z = r
        · subst hz; exact f4 w (fun e => h1 ⟨rfl, e⟩) hf
        · unfold Free at hf ⊢
          by_cases hzq : z = q
          · subst hzq; rw [n4]; exact hf
          · rw [o4 z hz hzq]; exact hf
    have := h.step (F3.trans F4) hq g4 (fun c hc => Function.update_of_ne hc ..) p4 (y := X r) (by rw [m4, hst3]) (v := .avail m) (by
      unfold Link
      dsimp only
      rw [if_pos hfix]
      refine ⟨Function.update_self .., ?_⟩
      rw [hm4]
      exact map_store (nodup_rbs _ _) (by simp [hlen hfix]))
    rw [Function.update_eq_self] at this
    exact ⟨t4, r1.trans (r2.trans (r3.trans r4)), this⟩
  · -- with header
    rename_i hfix
    have e1 : first T q r = [.rs r] := by unfold first; rw [if_neg hfix]
    obtain ⟨t4, r4, g4, p4, m4, o4, f4⟩ := op_write (eager := eager) g3 p3
      (g3.idle_mem fun l hl w hw => by
        simp only [List.map_singleton, List.mem_singleton] at hl; subst hl; cases hw; exact f3 _ (f2 _ fr1))
    simp only [List.map_singleton, store] at m4
    have F4 : Fr r r q t3 t4 := by
      refine Fr.of_rank o4 (fun l h1 _ _ => ?_) fun w _ _ hf => f4 _ hf
      rw [m4, Function.update_of_ne fun e => h1 ⟨rfl, by subst e; rfl⟩]
    have hst4 : (t4.ranks r).mem .st = .st (X r) := by rw [m4, Function.update_of_ne (by simp), hst3]
    have hsb4 : (sbs q m.length).map (t4.ranks r).mem = m.map Val.cell := by
      rw [← hsb3, m4]
      refine List.map_congr_left fun l hl => Function.update_of_ne (fun e => ?_) ..
      subst e
      obtain ⟨i, -, hi⟩ := List.mem_map.1 hl
      cases hi
    obtain ⟨t5, r5, g5, p5, m5, n5, o5, f5⟩ := op_send (eager := eager) g4 hne p4 hl hq
      (fun l hl => by rw [List.mem_singleton] at hl; subst hl; rfl) (by simp [e1])
    have hm5 := congrArg Rank.mem n5
    simp only [e1, List.map_singleton, store] at hm5
    have F5 : Fr r r q t4 t5 := by
      refine ⟨fun z hz => ?_, fun z l h1 h2 _ => ?_, fun z hz => ?_, fun z w h1 h2 hf => ?_⟩
      · by_cases hzq : z = q
        · subst hzq; rw [n5]
        · rw [o5 z hz hzq]
      · by_cases hz : z = r
        · subst hz; rw [m5]
        · by_cases hzq : z = q
          · subst hzq
            rw [hm5, Function.update_of_ne fun e => h2 ⟨rfl, by subst e; rfl⟩]
          · rw [o5 z hz hzq]
      · by_cases hzq : z = q
        · subst hzq
          rw [hm5, Function.update_of_ne (by simp)]
        · rw [o5 z hz hzq]
      · by_cases hz : z = r
        · subst hz; exact f5 w (fun e => h1 ⟨rfl, e⟩) hf
        · unfold Free at hf ⊢
          by_cases hzq : z = q
          · subst hzq; rw [n5]; exact hf
          · rw [o5 z hz hzq]; exact hf
    obtain ⟨t6, r6, g6, p6, m6, o6, f6⟩ := op_half (eager := eager) g5 p5 (Function.update_self ..) hq (fun l hl => mem_sbs hl)
    have F6 : Fr r r q t5 t6 := Fr.of_rank o6 (fun l _ _ _ => by rw [m6]) fun w h1 _ hf => f6 w (fun e => h1 ⟨rfl, e⟩) hf
    have := h.step (F3.trans (F4.trans (F5.trans F6))) hq g6
      (fun c hc => by rw [Function.update_of_ne hc, Function.update_of_ne hc]) p6 (y := X r) (by rw [m6, m5, hst4]) (v := .avail m) (by
      unfold Link
      dsimp only
      rw [if_neg hfix]
      refine ⟨Function.update_self .., ?_, ?_⟩
      · rw [o6 q hne.symm, hm5, Function.update_self, m4, Function.update_self]
      · rw [m6, m5, hsb4])
    rw [Function.update_eq_self] at this
    exact ⟨t6, r1.trans (r2.trans (r3.trans (r4.trans (r5.trans r6)))), this⟩

/-! ## Receiving -/

/-- the second part of a message with header -/
theorem run_second (hT : NetOK T) {s0 : SS σ β} {Q : Nat → P σ β} {X : Nat → σ} {A : Nat → Nat → LS β} (h : View T s0 lk Q X A) (hfix : T.fixed = false) {r q : Nat}
    {k : Nat → P σ β} {m : List β} (hq : q ∈ T.src r) (hA : A q r = .avail m)
    (hF : Fr r q r s0 s) (hm : (s.ranks r).mem = (s0.ranks r).mem) (hf : Free s r (hr q)) (hG : G T s lk) (ho : s.ranks q = s0.ranks q)
    (hp : (s.ranks r).proc = secondP q k) :
    ∃ t, RunTo eager s t ∧ G T t (Function.update lk ⟨q, r, tag⟩ .idle) ∧ (t.ranks r).proc = k m.length ∧ (rbs q m.length).map (t.ranks r).mem = m.map Val.cell ∧
      (t.ranks r).mem .st = .st (X r) ∧ Free t r (hr q) ∧ Fr r q r s0 t := by
  have hq' := (hT.sym _ _).1 hq
  have hne := hT.ne q r hq'
  have hl := h.link q r hq'
  rw [hA] at hl
  unfold Link at hl
  dsimp only at hl
  rw [if_neg (by simp [hfix])] at hl
  obtain ⟨l1, l2, l3⟩ := hl
  obtain ⟨t1, r1, g1, p1, m1, o1, f1⟩ := op_read (eager := eager) hG hp
    (busyRead_of_write (hG.idle_mem fun l hl w hw => by rw [List.mem_singleton] at hl; subst hl; cases hw; exact hf))
  rw [List.map_singleton, hm, l2, withSize] at p1
  obtain ⟨t2, r2, g2, p2, m2, o2, f2⟩ := op_recv (eager := eager) g1 hne.symm p1 l1 hq (fun l hl => mem_rbs hl) (f1 _ hf) (by simp)
  rw [o1 q hne, ho, l3, m1, hm] at m2
  obtain ⟨t3, r3, g3, p3, m3, fr3, o3, f3⟩ := op_wait_prov (eager := eager) g2 p2 (by rw [Function.update_self]; intro ls e; cases e)
  refine ⟨t3, r1.trans (r2.trans r3), g3, p3, ?_, ?_, fr3, hF.trans ?_⟩
  · rw [m3, m2]; exact map_store (nodup_rbs _ _) (by simp)
  · rw [m3, m2, store_of_not_mem (fun hl => by cases mem_rbs hl), h.st]
  · refine Fr.of_rank (fun z hz => by rw [o3 z hz, o2 z hz, o1 z hz]) (fun l _ h2 _ => ?_) fun w _ h2 hf => f3 _ (f2 _ (fun e => h2 ⟨rfl, e⟩) (f1 _ hf))
    rw [m3, m2, store_of_not_mem (fun hl => h2 ⟨rfl, mem_rbs hl⟩), hm]

/-- load the patch and post the next receive -/
theorem run_load (hT : NetOK T) {s0 : SS σ β} {Q : Nat → P σ β} {X : Nat → σ} {A : Nat → Nat → LS β} (h : View T s0 lk Q X A) {r q n : Nat}
    {k : P σ β} {m : List β} (hq : q ∈ T.src r) (hF : Fr r q r s0 s) (hf : Free s r (hr q)) (hG : G T s lk')
    (hl : lk' ⟨q, r, tag⟩ = .idle) (hl' : ∀ c, c ≠ ⟨q, r, tag⟩ → lk' c = lk c)
    (hm : (rbs q n).map (s.ranks r).mem = m.map Val.cell) (hst : (s.ranks r).mem .st = .st (X r))
    (hp : (s.ranks r).proc = loadP T r q n (recvP T r q k)) :
    ∃ t, RunTo eager s t ∧ Sees T t (Function.update Q r k) (Function.update X r (T.load r q m (X r))) (upd2 A q r .posted) := by
  have hq' := (hT.sym _ _).1 hq
  obtain ⟨t1, r1, g1, p1, m1, o1, f1⟩ := op_read (eager := eager) hG hp
    (busyRead_of_write (hG.idle_mem fun l hl w hw => by
      rcases List.mem_cons.1 hl with rfl | hl
      · cases hw
      · rw [mem_rbs hl] at hw; cases hw; exact hf))
  rw [List.map_cons, hm, hst, withSt, cellsOf_map] at p1
  obtain ⟨t2, r2, g2, p2, m2, o2, f2⟩ := op_write (eager := eager) g1 p1
    (g1.idle_mem fun l hl w hw => by simp only [List.map_singleton, List.mem_singleton] at hl; subst hl; cases hw)
  simp only [List.map_singleton, store, m1] at m2
  obtain ⟨t3, r3, g3, p3, m3, o3, f3⟩ := op_post (eager := eager) g2 p2 hl hq (fun l hl => mem_first hl) (f2 _ (f1 _ hf))
  refine ⟨t3, r1.trans (r2.trans r3), h.step (hF.trans ?_) hq' g3 (fun c hc => by rw [Function.update_of_ne hc, hl' c hc]) p3
    (by rw [m3, m2, Function.update_self]) (v := .posted) (by unfold Link; simp)⟩
  refine Fr.of_rank (fun z hz => by rw [o3 z hz, o2 z hz, o1 z hz]) (fun l _ _ h3 => ?_) fun w _ h2 hf => f3 _ (fun e => h2 ⟨rfl, e⟩) (f2 _ (f1 _ hf))
  rw [m3, m2, Function.update_of_ne h3]

theorem run_get (hT : NetOK T) {Q : Nat → P σ β} {X : Nat → σ} {A : Nat → Nat → LS β} (h : Sees T s Q X A) {r q : Nat} {k : P σ β} {m : List β}
    (hq : q ∈ T.src r) (hp : Q r = getP T r q k) (hA : A q r = .avail m) :
    ∃ t, RunTo eager s t ∧ Sees T t (Function.update Q r k) (Function.update X r (T.load r q m (X r))) (upd2 A q r .posted) := by
  obtain ⟨lk, h⟩ := h
  have hq' := (hT.sym _ _).1 hq
  have hne := hT.ne q r hq'
  have hl := h.link q r hq'
  rw [hA] at hl
  unfold Link at hl
  dsimp only at hl
  obtain ⟨t1, r1, g1, p1, m1, fr1, o1, f1⟩ := op_wait_prov (eager := eager) h.inv ((h.proc r).trans hp) (by
    intro ls e
    split at hl
    · rw [hl.1] at e; cases e
    · rw [hl.1] at e; cases e)
  have F1 : Fr r q r s t1 := Fr.of_rank o1 (fun l _ _ _ => by rw [m1]) fun w _ _ hf => f1 _ hf
  split at p1
  · rename_i hfix
    rw [if_pos hfix] at hl
    obtain ⟨t2, r2, hS⟩ := run_load (eager := eager) hT h hq F1 fr1 g1 hl.1 (fun _ _ => rfl) (by rw [m1]; exact hl.2) (by rw [m1, h.st]) p1
    exact ⟨t2, r1.trans r2, hS⟩
  · rename_i hfix
    have hfix' : T.fixed = false := by simpa using hfix
    obtain ⟨t2, r2, g2, p2, m2, st2, fr2, F2⟩ := run_second (eager := eager) hT h hfix' hq hA F1 m1 fr1 g1 (o1 q hne) p1
    obtain ⟨t3, r3, hS⟩ := run_load (eager := eager) hT h hq F2 fr2 g2 (Function.update_self ..) (fun c hc => Function.update_of_ne hc ..) m2 st2 p2
    exact ⟨t3, r1.trans (r2.trans r3), hS⟩

/-- the last message -/
theorem run_clean (hT : NetOK T) (hrep : T.fixed = true ∨ T.repaired = true) {Q : Nat → P σ β} {X : Nat → σ} {A : Nat → Nat → LS β} (h : Sees T s Q X A) {r q : Nat} {k : P σ β} {m : List β}
    (hq : q ∈ T.src r) (hp : Q r = cleanP T q k) (hA : A q r = .avail m) :
    ∃ t, RunTo eager s t ∧ Sees T t (Function.update Q r k) X (upd2 A q r .fin) := by
  obtain ⟨lk, h⟩ := h
  have hq' := (hT.sym _ _).1 hq
  have hne := hT.ne q r hq'
  have hl := h.link q r hq'
  rw [hA] at hl
  unfold Link at hl
  dsimp only at hl
  unfold cleanP at hp
  split at hp
  · rename_i hfix
    rw [if_pos hfix] at hl
    have := h.step (Fr.refl r q r s) hq' h.inv (fun _ _ => rfl) (h.proc r) (h.st r) (v := .fin) hl.1
    rw [hp, Function.update_eq_self] at this
    exact ⟨s, RunTo.refl _, this⟩
  · rename_i hfix
    rw [if_neg hfix] at hl
    rw [if_pos (by rcases hrep with h | h; exact absurd h hfix; exact h)] at hp
    obtain ⟨t1, r1, g1, p1, m1, fr1, o1, f1⟩ := op_wait_prov (eager := eager) h.inv ((h.proc r).trans hp) (by intro ls e; rw [hl.1] at e; cases e)
    have F1 : Fr r q r s t1 := Fr.of_rank o1 (fun l _ _ _ => by rw [m1]) fun w _ _ hf => f1 _ hf
    have hfix' : T.fixed = false := by simpa using hfix
    obtain ⟨t2, r2, g2, p2, m2, st2, fr2, F2⟩ := run_second (eager := eager) hT h hfix' hq hA F1 m1 fr1 g1 (o1 q hne) p1
    have := h.step F2 hq' g2 (fun c hc => Function.update_of_ne hc ..) p2 st2 (v := .fin) (by unfold Link; simp)
    rw [Function.update_eq_self] at this
    exact ⟨t2, r1.trans r2, this⟩

end LGD.LinkProg
