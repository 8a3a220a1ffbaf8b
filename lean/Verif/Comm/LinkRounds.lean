import Verif.Comm.LinkView

/-!
# Synchronisations of all ranks
-/

namespace LGD.LinkProg
open LGD.Mpi

variable {σ β : Type} {T : Net σ β} {eager : Ch → Nat → Bool}

theorem Sees.congr {s : SS σ β} {Q Q' : Nat → P σ β} {X X' : Nat → σ} {A A' : Nat → Nat → LS β} (h : Sees T s Q X A) (hQ : ∀ r, Q r = Q' r)
    (hX : ∀ r, X r = X' r) (hA : ∀ a b, b ∈ T.dst a → A a b = A' a b) : Sees T s Q' X' A' := by
  obtain ⟨lk, h⟩ := h
  exact ⟨lk, h.inv, fun r => (h.proc r).trans (hQ r), fun r => by rw [h.st, hX], fun a b hab => by rw [← hA a b hab]; exact h.link a b hab, h.rest⟩

/-! ## One rank -/

theorem run_recvs (hT : NetOK T) {r : Nat} {k : P σ β} {X : Nat → σ} : ∀ (l : List Nat) (s : SS σ β) (Q : Nat → P σ β) (A : Nat → Nat → LS β),
    l.Nodup → (∀ q ∈ l, q ∈ T.src r) → Sees T s Q X A → Q r = forAll (recvP T r) l k → (∀ q ∈ l, A q r = .fresh) →
    ∃ t, RunTo eager s t ∧ Sees T t (Function.update Q r k) X (fun a b => if b = r ∧ a ∈ l then .posted else A a b) := by
  intro l
  induction l with
  | nil =>
    intro s Q A _ _ h hp _
    refine ⟨s, RunTo.refl _, h.congr (fun z => ?_) (fun _ => rfl) (fun a b _ => by simp)⟩
    change Q r = k at hp
    rw [← hp, Function.update_eq_self]
  | cons q l ih =>
    intro s Q A hn hl h hp hA
    rw [List.nodup_cons] at hn
    obtain ⟨t, r1, h1⟩ := run_recv (eager := eager) hT h (hl q (List.mem_cons_self ..)) hp (hA q (List.mem_cons_self ..))
    obtain ⟨u, r2, h2⟩ := ih t _ _ hn.2 (fun x hx => hl x (List.mem_cons_of_mem _ hx)) h1 (Function.update_self ..) (fun x hx => by
      unfold upd2
      rw [if_neg (fun e => hn.1 (by rw [← e.1]; exact hx))]
      exact hA x (List.mem_cons_of_mem _ hx))
    refine ⟨u, r1.trans r2, h2.congr (fun z => by rw [Function.update_idem]) (fun _ => rfl) fun a b _ => ?_⟩
    unfold upd2
    simp only [List.mem_cons]
    by_cases hb : b = r
    · subst hb
      by_cases ha : a ∈ l
      · simp [ha]
      · by_cases haq : a = q
        · subst haq; simp
        · simp [ha, haq]
    · simp [hb]

theorem run_puts (hT : NetOK T) {r : Nat} {k : P σ β} {X : Nat → σ} : ∀ (l : List Nat) (s : SS σ β) (Q : Nat → P σ β) (A : Nat → Nat → LS β),
    l.Nodup → (∀ q ∈ l, q ∈ T.dst r) → Sees T s Q X A → Q r = forAll (putP T r) l k → (∀ q ∈ l, A r q = .posted) →
    (∀ q ∈ l, T.fixed = true → (T.save r q (X r)).length = T.len r q) →
    ∃ t, RunTo eager s t ∧ Sees T t (Function.update Q r k) X (fun a b => if a = r ∧ b ∈ l then .avail (T.save r b (X r)) else A a b) := by
  intro l
  induction l with
  | nil =>
    intro s Q A _ _ h hp _ _
    refine ⟨s, RunTo.refl _, h.congr (fun z => ?_) (fun _ => rfl) (fun a b _ => by simp)⟩
    change Q r = k at hp
    rw [← hp, Function.update_eq_self]
  | cons q l ih =>
    intro s Q A hn hl h hp hA hlen
    rw [List.nodup_cons] at hn
    obtain ⟨t, r1, h1⟩ := run_put (eager := eager) hT h (hl q (List.mem_cons_self ..)) hp (hA q (List.mem_cons_self ..)) (hlen q (List.mem_cons_self ..))
    obtain ⟨u, r2, h2⟩ := ih t _ _ hn.2 (fun x hx => hl x (List.mem_cons_of_mem _ hx)) h1 (Function.update_self ..) (fun x hx => by
      unfold upd2
      rw [if_neg (fun e => hn.1 (by rw [← e.2]; exact hx))]
      exact hA x (List.mem_cons_of_mem _ hx)) (fun x hx => hlen x (List.mem_cons_of_mem _ hx))
    refine ⟨u, r1.trans r2, h2.congr (fun z => by rw [Function.update_idem]) (fun _ => rfl) fun a b _ => ?_⟩
    unfold upd2
    simp only [List.mem_cons]
    by_cases ha : a = r
    · subst ha
      by_cases hb : b ∈ l
      · simp [hb]
      · by_cases hbq : b = q
        · subst hbq; simp
        · simp [hb, hbq]
    · simp [ha]

theorem run_gets (hT : NetOK T) {r : Nat} {k : P σ β} {msg : Nat → List β} : ∀ (l : List Nat) (s : SS σ β) (Q : Nat → P σ β) (X : Nat → σ) (A : Nat → Nat → LS β),
    l.Nodup → (∀ q ∈ l, q ∈ T.src r) → Sees T s Q X A → Q r = forAll (getP T r) l k → (∀ q ∈ l, A q r = .avail (msg q)) →
    ∃ t, RunTo eager s t ∧ Sees T t (Function.update Q r k) (Function.update X r (l.foldl (fun x q => T.load r q (msg q) x) (X r)))
      (fun a b => if b = r ∧ a ∈ l then .posted else A a b) := by
  intro l
  induction l with
  | nil =>
    intro s Q X A _ _ h hp _
    refine ⟨s, RunTo.refl _, h.congr (fun z => ?_) (fun z => ?_) (fun a b _ => by simp)⟩
    · change Q r = k at hp
      rw [← hp, Function.update_eq_self]
    · rw [List.foldl_nil, Function.update_eq_self]
  | cons q l ih =>
    intro s Q X A hn hl h hp hA
    rw [List.nodup_cons] at hn
    obtain ⟨t, r1, h1⟩ := run_get (eager := eager) hT h (hl q (List.mem_cons_self ..)) hp (hA q (List.mem_cons_self ..))
    obtain ⟨u, r2, h2⟩ := ih t _ _ _ hn.2 (fun x hx => hl x (List.mem_cons_of_mem _ hx)) h1 (Function.update_self ..) (fun x hx => by
      unfold upd2
      rw [if_neg (fun e => hn.1 (by rw [← e.1]; exact hx))]
      exact hA x (List.mem_cons_of_mem _ hx))
    refine ⟨u, r1.trans r2, h2.congr (fun z => by rw [Function.update_idem]) (fun z => by rw [Function.update_idem, Function.update_self, List.foldl_cons]) fun a b _ => ?_⟩
    unfold upd2
    simp only [List.mem_cons]
    by_cases hb : b = r
    · subst hb
      by_cases ha : a ∈ l
      · simp [ha]
      · by_cases haq : a = q
        · subst haq; simp
        · simp [ha, haq]
    · simp [hb]

theorem run_cleans (hT : NetOK T) (hrep : T.fixed = true ∨ T.repaired = true) {r : Nat} {k : P σ β} {msg : Nat → List β} {X : Nat → σ} :
    ∀ (l : List Nat) (s : SS σ β) (Q : Nat → P σ β) (A : Nat → Nat → LS β),
    l.Nodup → (∀ q ∈ l, q ∈ T.src r) → Sees T s Q X A → Q r = forAll (cleanP T) l k → (∀ q ∈ l, A q r = .avail (msg q)) →
    ∃ t, RunTo eager s t ∧ Sees T t (Function.update Q r k) X (fun a b => if b = r ∧ a ∈ l then .fin else A a b) := by
  intro l
  induction l with
  | nil =>
    intro s Q A _ _ h hp _
    refine ⟨s, RunTo.refl _, h.congr (fun z => ?_) (fun z => rfl) (fun a b _ => by simp)⟩
    change Q r = k at hp
    rw [← hp, Function.update_eq_self]
  | cons q l ih =>
    intro s Q A hn hl h hp hA
    rw [List.nodup_cons] at hn
    obtain ⟨t, r1, h1⟩ := run_clean (eager := eager) hT hrep h (hl q (List.mem_cons_self ..)) hp (hA q (List.mem_cons_self ..))
    obtain ⟨u, r2, h2⟩ := ih t _ _ hn.2 (fun x hx => hl x (List.mem_cons_of_mem _ hx)) h1 (Function.update_self ..) (fun x hx => by
      unfold upd2
      rw [if_neg (fun e => hn.1 (by rw [← e.1]; exact hx))]
      exact hA x (List.mem_cons_of_mem _ hx))
    refine ⟨u, r1.trans r2, h2.congr (fun z => by rw [Function.update_idem]) (fun z => rfl) fun a b _ => ?_⟩
    unfold upd2
    simp only [List.mem_cons]
    by_cases hb : b = r
    · subst hb
      by_cases ha : a ∈ l
      · simp [ha]
      · by_cases haq : a = q
        · subst haq; simp
        · simp [ha, haq]
    · simp [hb]

/-! ## All ranks -/

/-- some ranks are ahead -/
def mix {γ : Type} (R : Nat) (f g : Nat → γ) : Nat → γ := fun r => if r < R then f r else g r

theorem mix_self {γ : Type} (R : Nat) (f g : Nat → γ) : mix R f g R = g R := if_neg (Nat.lt_irrefl _)

theorem update_mix {γ : Type} (R : Nat) (f g : Nat → γ) : Function.update (mix R f g) R (f R) = mix (R + 1) f g := by
  funext r
  by_cases h : r = R
  · subst h
    rw [Function.update_self, mix, if_pos (Nat.lt_succ_self _)]
  · rw [Function.update_of_ne h, mix, mix]
    by_cases h1 : r < R
    · rw [if_pos h1, if_pos (by omega)]
    · rw [if_neg h1, if_neg (by omega)]

/-- one rank after the other -/
theorem run_ranks {Q Q' : Nat → P σ β} {X X' : Nat → σ} (B : Nat → Nat → Nat → LS β)
    (step : ∀ R s, R < T.N → Sees T s (mix R Q' Q) (mix R X' X) (B R) →
      ∃ t, RunTo eager s t ∧ Sees T t (Function.update (mix R Q' Q) R (Q' R)) (Function.update (mix R X' X) R (X' R)) (B (R + 1)))
    {s : SS σ β} (h : Sees T s Q X (B 0)) : ∃ t, RunTo eager s t ∧ Sees T t (mix T.N Q' Q) (mix T.N X' X) (B T.N) := by
  have key : ∀ R, R ≤ T.N → ∃ t, RunTo eager s t ∧ Sees T t (mix R Q' Q) (mix R X' X) (B R) := by
    intro R
    induction R with
    | zero => intro _; exact ⟨s, RunTo.refl _, h.congr (fun _ => rfl) (fun _ => rfl) fun _ _ _ => rfl⟩
    | succ R ih =>
      intro hR
      obtain ⟨t, r1, h1⟩ := ih (by omega)
      obtain ⟨u, r2, h2⟩ := step R t (by omega) h1
      rw [update_mix, update_mix] at h2
      exact ⟨u, r1.trans r2, h2⟩
  exact key T.N (Nat.le_refl _)

/-- what rank `r` has received and loaded -/
def loaded (T : Net σ β) (X : Nat → σ) (r : Nat) : σ := (T.src r).foldl (fun x q => T.load r q (T.save q r (X q)) x) (X r)

/-- patch sizes -/
def Sized (T : Net σ β) (X : Nat → σ) : Prop := ∀ a b, b ∈ T.dst a → T.fixed = true → (T.save a b (X a)).length = T.len a b

theorem all_charge (hT : NetOK T) {s : SS σ β} {k : Nat → P σ β} {X Y : Nat → σ} {rest : Nat → P σ β}
    (h : Sees T s (mix T.N (fun r => forAll (recvP T r) (T.src r) (compP T r 0 (k r))) rest) X fun _ _ => .fresh)
    (hc : ∀ r, r < T.N → T.comp r 0 (X r) = some (Y r)) :
    ∃ t, RunTo eager s t ∧ Sees T t (mix T.N k rest) (mix T.N Y X) fun _ _ => .posted := by
  obtain ⟨t, r1, h1⟩ := run_ranks (eager := eager) (Q := mix T.N (fun r => forAll (recvP T r) (T.src r) (compP T r 0 (k r))) rest) (Q' := k) (X := X) (X' := Y)
    (fun R _ b => if b < R then .posted else .fresh) (fun R s hR hS => by
      have hp : mix R k (mix T.N (fun r => forAll (recvP T r) (T.src r) (compP T r 0 (k r))) rest) R = forAll (recvP T R) (T.src R) (compP T R 0 (k R)) := by
        rw [mix_self, mix, if_pos hR]
      obtain ⟨t, r1, h1⟩ := run_recvs (eager := eager) hT (T.src R) s _ _ (hT.src R) (fun _ h => h) hS hp (fun q _ => if_neg (Nat.lt_irrefl _))
      obtain ⟨u, r2, h2⟩ := run_comp (eager := eager) h1 (Function.update_self ..) (by rw [mix_self]; exact hc R hR)
      refine ⟨u, r1.trans r2, h2.congr (fun z => by rw [Function.update_idem]) (fun _ => rfl) fun a b hab => ?_⟩
      by_cases hb : b = R
      · subst hb
        rw [if_pos ⟨rfl, (hT.sym _ _).2 hab⟩, if_pos (Nat.lt_succ_self _)]
      · simp only [hb, false_and, if_false]
        by_cases h1 : b < R
        · rw [if_pos h1, if_pos (by omega)]
        · rw [if_neg h1, if_neg (by omega)]) (h.congr (fun _ => rfl) (fun _ => rfl) fun _ _ _ => by simp)
  refine ⟨t, r1, h1.congr (fun r => ?_) (fun _ => rfl) fun a b hab => ?_⟩
  · unfold mix; split <;> rfl
  · rw [if_pos (hT.lt a b hab).2]

theorem all_puts (hT : NetOK T) {s : SS σ β} {k : Nat → P σ β} {X : Nat → σ} {rest : Nat → P σ β} (hs : Sized T X)
    (h : Sees T s (mix T.N (fun r => forAll (putP T r) (T.dst r) (k r)) rest) X fun _ _ => .posted) :
    ∃ t, RunTo eager s t ∧ Sees T t (mix T.N k rest) X fun a b => .avail (T.save a b (X a)) := by
  obtain ⟨t, r1, h1⟩ := run_ranks (eager := eager) (Q := mix T.N (fun r => forAll (putP T r) (T.dst r) (k r)) rest) (Q' := k) (X := X) (X' := X)
    (fun R a b => if a < R then .avail (T.save a b (X a)) else .posted) (fun R s hR hS => by
      have hp : mix R k (mix T.N (fun r => forAll (putP T r) (T.dst r) (k r)) rest) R = forAll (putP T R) (T.dst R) (k R) := by
        rw [mix_self, mix, if_pos hR]
      have hX : mix R X X = X := by funext r; unfold mix; split <;> rfl
      rw [hX] at hS ⊢
      obtain ⟨t, r1, h1⟩ := run_puts (eager := eager) hT (T.dst R) s _ _ (hT.dst R) (fun _ h => h) hS hp (fun q _ => if_neg (Nat.lt_irrefl _)) fun q hq => hs R q hq
      refine ⟨t, r1, h1.congr (fun z => rfl) (fun _ => by rw [Function.update_eq_self]) fun a b hab => ?_⟩
      by_cases ha : a = R
      · subst ha
        rw [if_pos ⟨rfl, hab⟩, if_pos (Nat.lt_succ_self _)]
      · simp only [ha, false_and, if_false]
        by_cases h1 : a < R
        · rw [if_pos h1, if_pos (by omega)]
        · rw [if_neg h1, if_neg (by omega)]) (h.congr (fun _ => rfl) (fun _ => rfl) fun _ _ _ => by simp)
  refine ⟨t, r1, h1.congr (fun r => ?_) (fun r => ?_) fun a b hab => ?_⟩
  · unfold mix; split <;> rfl
  · unfold mix; split <;> rfl
  · rw [if_pos (hT.lt a b hab).1]

theorem all_gets (hT : NetOK T) {s : SS σ β} {k : Nat → P σ β} {X Y : Nat → σ} {m : Nat} {rest : Nat → P σ β}
    (h : Sees T s (mix T.N (fun r => forAll (getP T r) (T.src r) (compP T r m (k r))) rest) X fun a b => .avail (T.save a b (X a)))
    (hc : ∀ r, r < T.N → T.comp r m (loaded T X r) = some (Y r)) :
    ∃ t, RunTo eager s t ∧ Sees T t (mix T.N k rest) (mix T.N Y X) fun _ _ => .posted := by
  obtain ⟨t, r1, h1⟩ := run_ranks (eager := eager) (Q := mix T.N (fun r => forAll (getP T r) (T.src r) (compP T r m (k r))) rest) (Q' := k) (X := X) (X' := Y)
    (fun R a b => if b < R then .posted else .avail (T.save a b (X a))) (fun R s hR hS => by
      have hp : mix R k (mix T.N (fun r => forAll (getP T r) (T.src r) (compP T r m (k r))) rest) R = forAll (getP T R) (T.src R) (compP T R m (k R)) := by
        rw [mix_self, mix, if_pos hR]
      obtain ⟨t, r1, h1⟩ := run_gets (eager := eager) hT (msg := fun q => T.save q R (X q)) (T.src R) s _ _ _ (hT.src R) (fun _ h => h) hS hp (fun q _ => if_neg (Nat.lt_irrefl _))
      rw [mix_self] at h1
      obtain ⟨u, r2, h2⟩ := run_comp (eager := eager) h1 (Function.update_self ..) (by rw [Function.update_self]; exact hc R hR)
      refine ⟨u, r1.trans r2, h2.congr (fun z => by rw [Function.update_idem]) (fun _ => by rw [Function.update_idem]) fun a b hab => ?_⟩
      by_cases hb : b = R
      · subst hb
        rw [if_pos ⟨rfl, (hT.sym _ _).2 hab⟩, if_pos (Nat.lt_succ_self _)]
      · simp only [hb, false_and, if_false]
        by_cases h1 : b < R
        · rw [if_pos h1, if_pos (by omega)]
        · rw [if_neg h1, if_neg (by omega)]) (h.congr (fun _ => rfl) (fun _ => rfl) fun _ _ _ => by simp)
  refine ⟨t, r1, h1.congr (fun r => ?_) (fun _ => rfl) fun a b hab => ?_⟩
  · unfold mix; split <;> rfl
  · rw [if_pos (hT.lt a b hab).2]

theorem all_clean (hT : NetOK T) (hrep : T.fixed = true ∨ T.repaired = true) {s : SS σ β} {k : Nat → P σ β} {X Y : Nat → σ} {m : Nat} {rest : Nat → P σ β}
    (h : Sees T s (mix T.N (fun r => compP T r m (forAll (cleanP T) (T.src r) (k r))) rest) X fun a b => .avail (T.save a b (X a)))
    (hc : ∀ r, r < T.N → T.comp r m (X r) = some (Y r)) :
    ∃ t, RunTo eager s t ∧ Sees T t (mix T.N k rest) (mix T.N Y X) fun _ _ => .fin := by
  obtain ⟨t, r1, h1⟩ := run_ranks (eager := eager) (Q := mix T.N (fun r => compP T r m (forAll (cleanP T) (T.src r) (k r))) rest) (Q' := k) (X := X) (X' := Y)
    (fun R a b => if b < R then .fin else .avail (T.save a b (X a))) (fun R s hR hS => by
      have hp : mix R k (mix T.N (fun r => compP T r m (forAll (cleanP T) (T.src r) (k r))) rest) R = compP T R m (forAll (cleanP T) (T.src R) (k R)) := by
        rw [mix_self, mix, if_pos hR]
      obtain ⟨t, r1, h1⟩ := run_comp (eager := eager) hS hp (by rw [mix_self]; exact hc R hR)
      obtain ⟨u, r2, h2⟩ := run_cleans (eager := eager) hT hrep (msg := fun q => T.save q R (X q)) (T.src R) t _ _ (hT.src R) (fun _ h => h) h1 (Function.update_self ..)
        (fun q _ => if_neg (Nat.lt_irrefl _))
      refine ⟨u, r1.trans r2, h2.congr (fun z => by rw [Function.update_idem]) (fun _ => rfl) fun a b hab => ?_⟩
      by_cases hb : b = R
      · subst hb
        rw [if_pos ⟨rfl, (hT.sym _ _).2 hab⟩, if_pos (Nat.lt_succ_self _)]
      · simp only [hb, false_and, if_false]
        by_cases h1 : b < R
        · rw [if_pos h1, if_pos (by omega)]
        · rw [if_neg h1, if_neg (by omega)]) (h.congr (fun _ => rfl) (fun _ => rfl) fun _ _ _ => by simp)
  refine ⟨t, r1, h1.congr (fun r => ?_) (fun _ => rfl) fun a b hab => ?_⟩
  · unfold mix; split <;> rfl
  · rw [if_pos (hT.lt a b hab).2]

/-! ## The end -/

theorem Sees.quiet {s : SS σ β} {Q : Nat → P σ β} {X : Nat → σ} (h : Sees T s Q X fun _ _ => .fin) : Quiet s := by
  obtain ⟨lk, h⟩ := h
  have hlk : ∀ c, lk c = .idle := by
    intro c
    by_cases hc : c.tag = tag ∧ c.dst ∈ T.dst c.src
    · have : lk ⟨c.src, c.dst, tag⟩ = .idle := h.link c.src c.dst hc.2
      rw [← hc.1] at this
      exact this
    · exact h.rest c hc
  have hch : ∀ c, ChOK (s.sends c) (s.recvs c) .idle := by
    intro c
    have := h.inv.ch c
    rwa [hlk c] at this
  refine ⟨h.inv.err, fun c => (hch c).1, fun c => (hch c).2.1, fun c => (hch c).2.2, fun r q hq => ?_⟩
  have := h.inv.reqs r q hq
  cases hs : q.snd with
  | true => exact (this.snd hs).2.2.2.2
  | false => exact (this.rcv hs).2.2.2.2

/-- destructors of links -/
theorem run_waits {r : Nat} {k : P σ β} (f : Nat → Nat) : ∀ (l : List Nat) (s : SS σ β), Quiet s → (s.ranks r).proc = forAll (fun q => .wait (f q)) l k →
    ∃ t, RunTo eager s t ∧ Quiet t ∧ (t.ranks r).proc = k ∧ (t.ranks r).mem = (s.ranks r).mem ∧ (t.ranks r).out = (s.ranks r).out ∧
      (∀ q ∈ (t.ranks r).reqs, q ∈ (s.ranks r).reqs ∧ ∀ x ∈ l, q.h ≠ f x) ∧ ∀ z, z ≠ r → t.ranks z = s.ranks z := by
  intro l
  induction l with
  | nil => intro s hq hp; exact ⟨s, RunTo.refl _, hq, hp, rfl, rfl, fun q hq => ⟨hq, by simp⟩, fun _ _ => rfl⟩
  | cons x l ih =>
    intro s hq hp
    have r1 := run_wait (eager := eager) hq hp
    obtain ⟨u, r2, q2, p2, m2, e2, x2, o2⟩ := ih (s.setRank r { s.ranks r with
        proc := forAll (fun q => .wait (f q)) l k
        reqs := (s.ranks r).reqs.filter fun q => q.h != f x }) (hq.setRank fun q hq => List.mem_of_mem_filter hq) (by simp [St.setRank])
    refine ⟨u, r1.trans r2, q2, p2, by rw [m2]; simp [St.setRank], by rw [e2]; simp [St.setRank], fun q hq => ?_, fun z hz => ?_⟩
    · obtain ⟨h1, h2⟩ := x2 q hq
      simp only [St.setRank, Function.update_self, List.mem_filter] at h1
      refine ⟨h1.1, fun y hy => ?_⟩
      rcases List.mem_cons.1 hy with rfl | hy
      · simpa using h1.2
      · exact h2 y hy
    · rw [o2 z hz]
      exact Function.update_of_ne hz ..

theorem run_end {s : SS σ β} {X : Nat → σ}
    (h : Sees T s (mix T.N (fun r => forAll (fun q => .wait (hr q)) (T.src r) (forAll (fun q => .wait (hs q)) (T.dst r) .done)) fun _ => .done) X fun _ _ => .fin)
    (hT : NetOK T) : ∃ t, RunTo eager s t ∧ Final t ∧ ∀ r, (t.ranks r).mem .st = .st (X r) := by
  have hquiet := h.quiet
  obtain ⟨lk, hv⟩ := h
  have key : ∀ R, R ≤ T.N → ∃ t, RunTo eager s t ∧ Quiet t ∧ (∀ r, r < R → (t.ranks r).proc = .done ∧ (t.ranks r).reqs = [] ∧ (t.ranks r).mem .st = .st (X r)) ∧
      ∀ r, R ≤ r → t.ranks r = s.ranks r := by
    intro R
    induction R with
    | zero => intro _; exact ⟨s, RunTo.refl _, hquiet, fun r h => absurd h (Nat.not_lt_zero _), fun _ _ => rfl⟩
    | succ R ih =>
      intro hR
      obtain ⟨t, r1, q1, d1, o1⟩ := ih (by omega)
      have hp := hv.proc R
      rw [mix, if_pos (by omega), ← o1 R (Nat.le_refl _)] at hp
      obtain ⟨u, r2, q2, p2, m2, e2, x2, o2⟩ := run_waits (eager := eager) hr _ t q1 hp
      obtain ⟨v, r3, q3, p3, m3, e3, x3, o3⟩ := run_waits (eager := eager) hs _ u q2 p2
      refine ⟨v, r1.trans (r2.trans r3), q3, fun r hr' => ?_, fun r hr' => ?_⟩
      · by_cases he : r = R
        · subst he
          refine ⟨p3, ?_, by rw [m3, m2, o1 r (Nat.le_refl _), hv.st]⟩
          rw [List.eq_nil_iff_forall_not_mem]
          intro q hq
          obtain ⟨h1, h2⟩ := x3 q hq
          obtain ⟨h3, h4⟩ := x2 q h1
          rw [o1 r (Nat.le_refl _)] at h3
          have := hv.inv.reqs r q h3
          cases hs' : q.snd with
          | true => exact h2 _ (this.snd hs').2.2.2.1 (this.snd hs').1
          | false => exact h4 _ (this.rcv hs').2.2.2.1 (this.rcv hs').1
        · rw [o3 r he, o2 r he]
          exact d1 r (by omega)
      · rw [o3 r (by omega), o2 r (by omega), o1 r (by omega)]
  obtain ⟨t, r1, q1, d1, o1⟩ := key T.N (Nat.le_refl _)
  have hout : ∀ r, T.N ≤ r → (t.ranks r).proc = .done ∧ (t.ranks r).reqs = [] ∧ (t.ranks r).mem .st = .st (X r) := by
    intro r hr'
    rw [o1 r hr']
    refine ⟨by rw [hv.proc, mix, if_neg (by omega)], ?_, hv.st r⟩
    rw [List.eq_nil_iff_forall_not_mem]
    intro q hq
    have := hv.inv.reqs r q hq
    cases hs' : q.snd with
    | true => have := (hT.lt _ _ (this.snd hs').2.2.2.1).1; omega
    | false => have := (hT.lt _ _ ((hT.sym _ _).1 (this.rcv hs').2.2.2.1)).2; omega
  have hall : ∀ r, (t.ranks r).proc = .done ∧ (t.ranks r).reqs = [] ∧ (t.ranks r).mem .st = .st (X r) := by
    intro r
    by_cases hr' : r < T.N
    · exact d1 r hr'
    · exact hout r (by omega)
  exact ⟨t, r1, q1.final fun r => ⟨(hall r).1, (hall r).2.1⟩, fun r => (hall r).2.2⟩

/-! ## Everything -/

theorem mix_mix {γ : Type} (R : Nat) (f g h : Nat → γ) : mix R f (mix R g h) = mix R f h := by
  funext r; unfold mix; split <;> rfl

theorem run_rounds (hT : NetOK T) (hrep : T.fixed = true ∨ T.repaired = true) {X : Nat → Nat → σ} {Z X0 : Nat → σ} {K : Nat}
    (hs : ∀ m, m ≤ K → Sized T (mix T.N (X m) X0))
    (hc : ∀ m, m < K → ∀ r, r < T.N → T.comp r (m + 1) (loaded T (mix T.N (X m) X0) r) = some (X (m + 1) r))
    (hz : ∀ r, r < T.N → T.comp r (K + 1) (X K r) = some (Z r)) : ∀ (k m : Nat) (s : SS σ β), m + k = K →
    Sees T s (mix T.N (fun r => rounds T r k m) fun _ => .done) (mix T.N (X m) X0) (fun _ _ => .posted) →
    ∃ t, RunTo eager s t ∧ Final t ∧ ∀ r, (t.ranks r).mem .st = .st (mix T.N Z X0 r) := by
  intro k
  induction k with
  | zero =>
    intro m s hm h
    obtain rfl : m = K := by omega
    obtain ⟨t1, r1, h1⟩ := all_puts (eager := eager) (k := fun r => compP T r (m + 1) (endP T r)) hT (hs m (Nat.le_refl _)) h
    obtain ⟨t2, r2, h2⟩ := all_clean (eager := eager) hT hrep (Y := Z) (m := m + 1)
      (k := fun r => forAll (fun q => .wait (hr q)) (T.src r) (forAll (fun q => .wait (LinkProg.hs q)) (T.dst r) .done)) h1
      (fun r hr' => by rw [mix, if_pos hr']; exact hz r hr')
    rw [mix_mix] at h2
    obtain ⟨t3, r3, h3⟩ := run_end (eager := eager) h2 hT
    exact ⟨t3, r1.trans (r2.trans r3), h3⟩
  | succ k ih =>
    intro m s hm h
    obtain ⟨t1, r1, h1⟩ := all_puts (eager := eager) (k := fun r => forAll (getP T r) (T.src r) (compP T r (m + 1) (rounds T r k (m + 1)))) hT (hs m (by omega)) h
    obtain ⟨t2, r2, h2⟩ := all_gets (eager := eager) (Y := X (m + 1)) (k := fun r => rounds T r k (m + 1)) hT h1 (hc m (by omega))
    rw [mix_mix] at h2
    obtain ⟨t3, r3, h3⟩ := ih (m + 1) t2 (by omega) h2
    exact ⟨t3, r1.trans (r2.trans r3), h3⟩

/-- the ranks are started -/
def start0 (T : Net σ β) (K : Nat) (mem : Nat → Loc → Val σ β) : SS σ β := start (rankP T K) mem

/-- one schedule of the whole program -/
theorem run_all (hT : NetOK T) (hrep : T.fixed = true ∨ T.repaired = true) {X : Nat → Nat → σ} {Z X0 : Nat → σ} {K : Nat} {mem : Nat → Loc → Val σ β}
    (hm : ∀ r, mem r .st = .st (X0 r)) (h0 : ∀ r, r < T.N → T.comp r 0 (X0 r) = some (X 0 r))
    (hs : ∀ m, m ≤ K → Sized T (mix T.N (X m) X0))
    (hc : ∀ m, m < K → ∀ r, r < T.N → T.comp r (m + 1) (loaded T (mix T.N (X m) X0) r) = some (X (m + 1) r))
    (hz : ∀ r, r < T.N → T.comp r (K + 1) (X K r) = some (Z r)) :
    ∃ t, RunTo eager (start0 T K mem) t ∧ Final t ∧ ∀ r, (t.ranks r).mem .st = .st (mix T.N Z X0 r) := by
  have hS : Sees T (start0 T K mem) (mix T.N (fun r => forAll (recvP T r) (T.src r) (compP T r 0 (rounds T r K 0))) fun _ => .done) X0 fun _ _ => .fresh := by
    refine ⟨fun _ => .idle, ⟨rfl, fun c => ?_, fun r q hq => ?_⟩, fun r => ?_, fun r => hm r, fun a b _ => ⟨rfl, fun q hq => ?_⟩, fun _ _ => rfl⟩
    · exact ⟨by simp [start0, start], by simp [start0, start], by simp [start0, start]⟩
    · simp [start0, start] at hq
    · rfl
    · simp [start0, start] at hq
  obtain ⟨t1, r1, h1⟩ := all_charge (eager := eager) hT hS h0
  obtain ⟨t2, r2, h2⟩ := run_rounds (eager := eager) hT hrep hs hc hz K 0 t1 (by omega) h1
  exact ⟨t2, r1.trans r2, h2⟩

end LGD.LinkProg
