import Verif.Comm.MpiModel
import Mathlib.Tactic.Tauto

/-!
# The outcome of message passing doesn't depend on the schedule

`one_for_all`: if some schedule brings a set of programs to an end without an error, then every
schedule does so, in the same number of moves and with the same result; no schedule gets stuck or
runs into an error.
-/

namespace LGD.Mpi

set_option linter.unusedSectionVars false
set_option linter.unusedTactic false

variable {L V M E : Type} [DecidableEq L] [Wire V M]

theorem overlap_false {a b : List L} : overlap a b = false ↔ ∀ l ∈ a, l ∉ b := by
  simp [overlap]

theorem overlap_comm (a b : List L) : overlap a b = overlap b a := by
  rw [Bool.eq_iff_iff]
  simp only [overlap, List.any_eq_true, List.contains_iff_mem]
  tauto

theorem store_of_not_mem {l : L} : ∀ {ls : List L} {vs : List V} {mem : L → V}, l ∉ ls →
    store ls vs mem l = mem l
  | [], _, _, _ => by simp [store]
  | _ :: _, [], _, _ => by simp [store]
  | a :: ls, v :: vs, mem, h => by
    have ha : l ≠ a := fun e => h (by simp [e])
    rw [store, store_of_not_mem (fun hm => h (by simp [hm])), Function.update_of_ne ha]

theorem store_congr : ∀ {ls : List L} {vs : List V} {m1 m2 : L → V} {l : L}, m1 l = m2 l →
    store ls vs m1 l = store ls vs m2 l
  | [], _, _, _, _, h => by simpa [store] using h
  | _ :: _, [], _, _, _, h => by simpa [store] using h
  | a :: ls, v :: vs, m1, m2, l, h => by
    rw [store, store]
    refine store_congr ?_
    by_cases ha : l = a
    · subst ha; simp
    · simp [Function.update_of_ne ha, h]

theorem store_comm {la lb : List L} (h : overlap la lb = false) (va vb : List V) (mem : L → V) :
    store la va (store lb vb mem) = store lb vb (store la va mem) := by
  rw [overlap_false] at h
  funext l
  by_cases hl : l ∈ la
  · rw [store_of_not_mem (h l hl)]
    refine store_congr ?_
    exact store_of_not_mem (h l hl)
  · rw [store_of_not_mem hl]
    refine store_congr ?_
    exact (store_of_not_mem hl).symm

theorem map_store {la lb : List L} (h : overlap la lb = false) (vb : List V) (mem : L → V) :
    la.map (store lb vb mem) = la.map mem := by
  rw [overlap_false] at h
  exact List.map_congr_left fun l hl => store_of_not_mem (h l hl)

theorem msg_store {p : Payload L M} {lb : List L} (h : overlap p.ls lb = false) (vb : List V)
    (mem : L → V) : p.msg (store lb vb mem) = p.msg mem := by
  cases p with
  | const m => rfl
  | cells ls => exact congrArg Wire.enc (map_store (la := ls) h vb mem)

/-! ## Requests own their memory -/

/-- Every operation which may still access memory has a request, and requests don't get in each
other's way. -/
structure WF (s : St L V M E) : Prop where
  snd : ∀ ch i p, (s.sends ch)[i]? = some ⟨p, none⟩ →
    ∃ q ∈ (s.ranks ch.src).reqs, q.snd = true ∧ q.ch = ch ∧ q.i = i ∧ q.ls = p.ls
  rcv : ∀ ch i ls, (s.recvs ch)[i]? = some ⟨some ls, none⟩ →
    ∃ q ∈ (s.ranks ch.dst).reqs, q.snd = false ∧ q.ch = ch ∧ q.i = i ∧ q.ls = ls
  pw : ∀ r, (s.ranks r).reqs.Pairwise fun a b =>
    (a.snd = false ∨ b.snd = false) → overlap a.ls b.ls = false

theorem wf_start (procs : Nat → Proc L V M E) (mem : Nat → L → V) : WF (start procs mem) :=
  ⟨by simp [start], by simp [start], by simp [start]⟩

theorem pairwise_of_mem {α : Type} {R : α → α → Prop} (hs : ∀ a b, R a b → R b a) :
    ∀ {l : List α}, l.Pairwise R → ∀ a ∈ l, ∀ b ∈ l, a ≠ b → R a b
  | [], _, _, ha, _, _, _ => by simp at ha
  | x :: l, h, a, ha, b, hb, hab => by
    rw [List.pairwise_cons] at h
    rcases List.mem_cons.1 ha with rfl | ha'
    · rcases List.mem_cons.1 hb with rfl | hb'
      · exact absurd rfl hab
      · exact h.1 b hb'
    · rcases List.mem_cons.1 hb with rfl | hb'
      · exact hs _ _ (h.1 a ha')
      · exact pairwise_of_mem hs h.2 a ha' b hb' hab

theorem WF.disjoint {s : St L V M E} (h : WF s) {r : Nat} {a b : Req L}
    (ha : a ∈ (s.ranks r).reqs) (hb : b ∈ (s.ranks r).reqs) (hab : a ≠ b)
    (hs : a.snd = false ∨ b.snd = false) : overlap a.ls b.ls = false :=
  pairwise_of_mem (fun a b hr h' => by rw [overlap_comm]; exact hr h'.symm) (h.pw r) a ha b hb hab
    hs

/-- a pending receive and a pending send of the same rank -/
theorem WF.fetch_deliver {s : St L V M E} (h : WF s) {ca cb : Ch} {i j : Nat} {p : Payload L M}
    {ls : List L} (hr : ca.src = cb.dst) (ha : (s.sends ca)[i]? = some ⟨p, none⟩)
    (hb : (s.recvs cb)[j]? = some ⟨some ls, none⟩) : overlap p.ls ls = false := by
  obtain ⟨q, hq, q1, q2, q3, q4⟩ := h.snd _ _ _ ha
  obtain ⟨w, hw, w1, w2, w3, w4⟩ := h.rcv _ _ _ hb
  rw [← q4, ← w4]
  refine h.disjoint hq (hr ▸ hw) ?_ (Or.inr w1)
  rintro rfl; simp [q1] at w1

/-- two pending receives of the same rank -/
theorem WF.deliver_deliver {s : St L V M E} (h : WF s) {ca cb : Ch} {i j : Nat}
    {la lb : List L} (hr : ca.dst = cb.dst) (ha : (s.recvs ca)[i]? = some ⟨some la, none⟩)
    (hb : (s.recvs cb)[j]? = some ⟨some lb, none⟩) (hne : ca ≠ cb ∨ i ≠ j) :
    overlap la lb = false := by
  obtain ⟨q, hq, q1, q2, q3, q4⟩ := h.rcv _ _ _ ha
  obtain ⟨w, hw, w1, w2, w3, w4⟩ := h.rcv _ _ _ hb
  rw [← q4, ← w4]
  refine h.disjoint hq (hr ▸ hw) ?_ (Or.inr w1)
  rintro rfl
  rcases hne with hne | hne
  · exact hne (q2.symm.trans w2)
  · exact hne (q3.symm.trans w3)

/-! ## What the moves of the library do -/

theorem fetch_some {eager : Ch → Nat → Bool} {ch : Ch} {i : Nat} {s t : St L V M E} :
    fetchStep eager ch i s = some t ↔ ∃ p, (s.sends ch)[i]? = some ⟨p, none⟩ ∧
      (eager ch i = true ∨ i < (s.recvs ch).length) ∧
      t = { s with
        sends := Function.update s.sends ch
          ((s.sends ch).set i ⟨p, some (p.msg (s.ranks ch.src).mem)⟩) } := by
  unfold fetchStep
  split
  · rename_i p hp
    rw [hp]
    split
    · rename_i hc
      simp only [Bool.or_eq_true, decide_eq_true_eq] at hc
      simp only [Option.some.injEq, Snd.mk.injEq, and_true]
      constructor
      · intro h; exact ⟨p, rfl, hc, h.symm⟩
      · rintro ⟨p', rfl, -, h⟩; exact h.symm
    · rename_i hc
      simp only [Bool.or_eq_true, decide_eq_true_eq] at hc
      constructor
      · intro h; cases h
      · rintro ⟨p', -, h, -⟩; exact absurd h hc
  · rename_i hn
    constructor
    · intro h; cases h
    · rintro ⟨p', h, -⟩; exact absurd h (hn p')

/-- the memory of a receive after a message -/
def putMsg (ls : Option (List L)) (m : M) (mem : L → V) : L → V :=
  match ls with
  | none => mem
  | some ls => store ls ((Wire.dec m).getD []) mem

/-- whether a receive overflows -/
def overflow (V : Type) [Wire V M] (ls : Option (List L)) (m : M) : Bool :=
  match ls with
  | none => false
  | some ls => !fits (V := V) ls m

theorem deliver_some {ch : Ch} {i : Nat} {s t : St L V M E} :
    deliverStep ch i s = some t ↔ ∃ p m ls, (s.sends ch)[i]? = some ⟨p, some m⟩ ∧
      (s.recvs ch)[i]? = some ⟨ls, none⟩ ∧
      t = { s with
        ranks := Function.update s.ranks ch.dst
          { s.ranks ch.dst with mem := putMsg ls m (s.ranks ch.dst).mem }
        recvs := Function.update s.recvs ch ((s.recvs ch).set i ⟨ls, some m⟩)
        err := s.err || overflow V ls m } := by
  unfold deliverStep
  split
  · rename_i p m h1 h2
    rw [h1, h2]
    constructor
    · intro h
      refine ⟨p, m, none, rfl, rfl, ?_⟩
      cases h
      simp [putMsg, overflow]
    · rintro ⟨p', m', ls', e1, e2, h⟩
      cases e1; cases e2
      rw [h]
      simp [putMsg, overflow]
  · rename_i p m ls h1 h2
    rw [h1, h2]
    constructor
    · intro h
      refine ⟨p, m, some ls, rfl, rfl, ?_⟩
      cases h
      rfl
    · rintro ⟨p', m', ls', e1, e2, h⟩
      cases e1; cases e2
      rw [h]
      rfl
  · rename_i h1 h2
    constructor
    · intro h; cases h
    · rintro ⟨p, m, ls, e1, e2, -⟩
      cases ls with
      | none => exact absurd e2 (h1 p m e1)
      | some ls => exact absurd e2 (h2 p m ls e1)

/-! ## What the moves of a rank do -/

/-- the effect of a move of a rank -/
structure Eff (L V M E : Type) where
  rank : Rank L V M E
  snd : Option (Ch × Snd L M)
  rcv : Option (Ch × Rcv L M)
  bad : Bool

def push {α : Type} (f : Ch → List α) : Option (Ch × α) → Ch → List α
  | none => f
  | some (c, x) => Function.update f c (f c ++ [x])

theorem push_apply {α : Type} (f : Ch → List α) (o : Option (Ch × α)) (c : Ch) :
    ∃ t, push f o c = f c ++ t := by
  rcases o with _ | ⟨d, x⟩
  · exact ⟨[], by simp [push]⟩
  · by_cases h : c = d
    · subst h; exact ⟨[x], by simp [push]⟩
    · exact ⟨[], by simp [push, Function.update_of_ne h]⟩

theorem push_get {α : Type} {f : Ch → List α} {o : Option (Ch × α)} {c : Ch} {i : Nat} {x : α}
    (h : (f c)[i]? = some x) : (push f o c)[i]? = some x := by
  obtain ⟨t, ht⟩ := push_apply f o c
  obtain ⟨hi, hx⟩ := List.getElem?_eq_some_iff.1 h
  rw [ht, List.getElem?_append_left hi, h]

theorem push_of_ne {α : Type} {f : Ch → List α} {o : Option (Ch × α)} {c : Ch}
    (h : ∀ d x, o = some (d, x) → d ≠ c) : push f o c = f c := by
  rcases o with _ | ⟨d, x⟩
  · rfl
  · exact Function.update_of_ne (Ne.symm (h d x rfl)) _ _

theorem push_set {α : Type} {f : Ch → List α} {o : Option (Ch × α)} {c : Ch} {i : Nat} {y : α}
    (hi : i < (f c).length) :
    push (Function.update f c ((f c).set i y)) o =
      Function.update (push f o) c ((push f o c).set i y) := by
  rcases o with _ | ⟨d, x⟩
  · rfl
  · by_cases h : c = d
    · subst h
      simp [push, List.set_append_left _ _ hi]
    · simp only [push]
      rw [Function.update_of_ne (Ne.symm h), Function.update_of_ne h, Function.update_comm h]

theorem push_comm {α : Type} {f : Ch → List α} {a b : Option (Ch × α)}
    (h : ∀ c x d y, a = some (c, x) → b = some (d, y) → c ≠ d) :
    push (push f a) b = push (push f b) a := by
  rcases a with _ | ⟨c, x⟩
  · rfl
  · rcases b with _ | ⟨d, y⟩
    · rfl
    · have := h c x d y rfl rfl
      simp only [push]
      rw [Function.update_of_ne this, Function.update_of_ne this.symm, Function.update_comm this]

def fin' (sends : Ch → List (Snd L M)) (recvs : Ch → List (Rcv L M)) (q : Req L) : Bool :=
  if q.snd then
    match (sends q.ch)[q.i]? with
    | some e => e.data.isSome
    | none => false
  else
    match (recvs q.ch)[q.i]? with
    | some e => e.got.isSome
    | none => false

def locEff (r : Nat) (R : Rank L V M E) (sends : Ch → List (Snd L M))
    (recvs : Ch → List (Rcv L M)) : Option (Eff L V M E) :=
  match R.proc with
  | .done => none
  | .abort => some ⟨{ R with proc := .done }, none, none, true⟩
  | .isend dst tag h p k => some
      ⟨{ R with proc := k, reqs := ⟨h, true, ⟨r, dst, tag⟩, (sends ⟨r, dst, tag⟩).length, p.ls⟩ :: R.reqs },
        some (⟨r, dst, tag⟩, ⟨p, none⟩), none, busyRead R.reqs p.ls⟩
  | .irecv src tag h ls k => some
      ⟨{ R with proc := k, reqs := ⟨h, false, ⟨src, r, tag⟩, (recvs ⟨src, r, tag⟩).length, ls⟩ :: R.reqs },
        none, some (⟨src, r, tag⟩, ⟨some ls, none⟩), busyWrite R.reqs ls⟩
  | .recv src tag k => some
      ⟨{ R with proc := .recving src tag (recvs ⟨src, r, tag⟩).length k },
        none, some (⟨src, r, tag⟩, ⟨none, none⟩), false⟩
  | .recving src tag i k =>
    match (recvs ⟨src, r, tag⟩)[i]? with
    | some ⟨_, some m⟩ => some ⟨{ R with proc := k m }, none, none, false⟩
    | _ => none
  | .wait h k =>
    if R.reqs.all (fun q => q.h != h || fin' sends recvs q) then
      some ⟨{ R with proc := k, reqs := R.reqs.filter fun q => q.h != h }, none, none, false⟩
    else none
  | .read ls k => some ⟨{ R with proc := k (ls.map R.mem) }, none, none, busyRead R.reqs ls⟩
  | .write lvs k => some
      ⟨{ R with proc := k, mem := store (lvs.map Prod.fst) (lvs.map Prod.snd) R.mem }, none, none,
        busyWrite R.reqs (lvs.map Prod.fst)⟩
  | .emit e k => some ⟨{ R with proc := k, out := R.out ++ [e] }, none, none, false⟩

def Eff.apply (e : Eff L V M E) (r : Nat) (s : St L V M E) : St L V M E where
  ranks := Function.update s.ranks r e.rank
  sends := push s.sends e.snd
  recvs := push s.recvs e.rcv
  err := s.err || e.bad

theorem locStep_eq (r : Nat) (s : St L V M E) :
    locStep r s = (locEff r (s.ranks r) s.sends s.recvs).map fun e => e.apply r s := by
  unfold locStep locEff
  cases hp : (s.ranks r).proc with
  | done => simp only [hp, Option.map_none]
  | abort => simp [hp, Eff.apply, push]
  | isend => simp only [hp, Option.map_some]; rfl
  | irecv => simp only [hp, Option.map_some]; rfl
  | recv => simp [hp, Eff.apply, push]
  | recving src tag i k =>
    simp only [hp]
    rcases (s.recvs ⟨src, r, tag⟩)[i]? with _ | ⟨ls, _ | m⟩
    · rfl
    · rfl
    · simp [Eff.apply, push]
  | wait h k =>
    have : ∀ q, finished s q = fin' s.sends s.recvs q := fun _ => rfl
    simp only [hp, this]
    split
    · simp [Eff.apply, push]
    · rfl
  | read => simp only [hp, Option.map_some]; rfl
  | write => simp only [hp, Option.map_some]; rfl
  | emit => simp [hp, Eff.apply, push]

/-- later contents of the channels as far as rank `r` can tell -/
structure Later (r : Nat) (sends sends' : Ch → List (Snd L M)) (recvs recvs' : Ch → List (Rcv L M)) :
    Prop where
  slen : ∀ ch, ch.src = r → (sends' ch).length = (sends ch).length
  rlen : ∀ ch, ch.dst = r → (recvs' ch).length = (recvs ch).length
  sget : ∀ (ch : Ch) (i : Nat) (p : Payload L M) (m : M), (sends ch)[i]? = some ⟨p, some m⟩ →
    (sends' ch)[i]? = some ⟨p, some m⟩
  rget : ∀ (ch : Ch) (i : Nat) (ls : Option (List L)) (m : M), (recvs ch)[i]? = some ⟨ls, some m⟩ →
    (recvs' ch)[i]? = some ⟨ls, some m⟩

theorem Later.fin {r : Nat} {sends sends' : Ch → List (Snd L M)} {recvs recvs' : Ch → List (Rcv L M)}
    (h : Later r sends sends' recvs recvs') {q : Req L} (hq : fin' sends recvs q = true) :
    fin' sends' recvs' q = true := by
  unfold fin' at hq ⊢
  split at hq
  · rename_i hs
    rw [if_pos hs]
    rcases he : (sends q.ch)[q.i]? with _ | ⟨p, _ | m⟩
    · simp [he] at hq
    · simp [he] at hq
    · rw [h.sget _ _ _ _ he]; rfl
  · rename_i hs
    rw [if_neg hs]
    rcases he : (recvs q.ch)[q.i]? with _ | ⟨p, _ | m⟩
    · simp [he] at hq
    · simp [he] at hq
    · rw [h.rget _ _ _ _ he]; rfl

theorem Later.eff {r : Nat} {R : Rank L V M E} {sends sends' : Ch → List (Snd L M)}
    {recvs recvs' : Ch → List (Rcv L M)} (h : Later r sends sends' recvs recvs') {e : Eff L V M E}
    (he : locEff r R sends recvs = some e) : locEff r R sends' recvs' = some e := by
  unfold locEff at he ⊢
  cases hp : R.proc with
  | done => simp [hp] at he
  | abort => simpa [hp] using he
  | isend dst tag w p k => simpa [hp, h.slen ⟨r, dst, tag⟩ rfl] using he
  | irecv src tag w ls k => simpa [hp, h.rlen ⟨src, r, tag⟩ rfl] using he
  | recv src tag k => simpa [hp, h.rlen ⟨src, r, tag⟩ rfl] using he
  | recving src tag i k =>
    rw [hp] at he
    simp only at he ⊢
    split at he
    · rename_i ls m hm
      rw [h.rget _ _ _ _ hm]
      exact he
    · cases he
  | wait w k =>
    rw [hp] at he
    simp only at he ⊢
    split at he
    · rename_i hc
      rw [if_pos]
      · exact he
      · rw [List.all_eq_true] at hc ⊢
        intro q hq
        have := hc q hq
        rw [Bool.or_eq_true] at this ⊢
        exact this.imp_right h.fin
    · cases he
  | read => simpa [hp] using he
  | write => simpa [hp] using he
  | emit => simpa [hp] using he

theorem eff_snd {r : Nat} {R : Rank L V M E} {sends : Ch → List (Snd L M)}
    {recvs : Ch → List (Rcv L M)} {e : Eff L V M E} (he : locEff r R sends recvs = some e) {c : Ch}
    {x : Snd L M} (hx : e.snd = some (c, x)) : c.src = r := by
  unfold locEff at he
  cases hp : R.proc <;> simp only [hp] at he
  all_goals first
    | (cases he; done)
    | (split at he <;> cases he <;> cases hx; done)
    | (cases he; cases hx; try rfl)

theorem eff_rcv {r : Nat} {R : Rank L V M E} {sends : Ch → List (Snd L M)}
    {recvs : Ch → List (Rcv L M)} {e : Eff L V M E} (he : locEff r R sends recvs = some e) {c : Ch}
    {x : Rcv L M} (hx : e.rcv = some (c, x)) : c.dst = r := by
  unfold locEff at he
  cases hp : R.proc <;> simp only [hp] at he
  all_goals first
    | (cases he; done)
    | (split at he <;> cases he <;> cases hx; done)
    | (cases he; cases hx; try rfl)

theorem busy_of_req {reqs : List (Req L)} {q : Req L} (hq : q ∈ reqs) {ls : List L}
    (h : busyWrite reqs ls = false) : overlap ls q.ls = false := by
  simp only [busyWrite, List.any_eq_false, Bool.not_eq_true] at h
  exact h q hq

theorem busyRead_of_req {reqs : List (Req L)} {q : Req L} (hq : q ∈ reqs) (hs : q.snd = false)
    {ls : List L} (h : busyRead reqs ls = false) : overlap ls q.ls = false := by
  simp only [busyRead, List.any_eq_false, Bool.not_eq_true] at h
  simpa [hs] using h q hq

/-- a message arrives while a rank goes on -/
theorem eff_mem {r : Nat} {R : Rank L V M E} {sends : Ch → List (Snd L M)}
    {recvs : Ch → List (Rcv L M)} {e : Eff L V M E} (he : locEff r R sends recvs = some e)
    {q : Req L} (hq : q ∈ R.reqs) (hs : q.snd = false) (vs : List V) :
    ∃ e', locEff r { R with mem := store q.ls vs R.mem } sends recvs = some e' ∧ e'.snd = e.snd ∧
      e'.rcv = e.rcv ∧ e'.bad = e.bad ∧
      (e.bad = true ∨ e'.rank = { e.rank with mem := store q.ls vs e.rank.mem }) := by
  unfold locEff at he ⊢
  cases hp : R.proc with
  | done => simp [hp] at he
  | abort =>
    simp only [hp, Option.some.injEq] at he ⊢
    subst he
    exact ⟨_, rfl, rfl, rfl, rfl, Or.inr rfl⟩
  | isend dst tag w p k =>
    simp only [hp, Option.some.injEq] at he ⊢
    subst he
    exact ⟨_, rfl, rfl, rfl, rfl, Or.inr rfl⟩
  | irecv src tag w ls k =>
    simp only [hp, Option.some.injEq] at he ⊢
    subst he
    exact ⟨_, rfl, rfl, rfl, rfl, Or.inr rfl⟩
  | recv src tag k =>
    simp only [hp, Option.some.injEq] at he ⊢
    subst he
    exact ⟨_, rfl, rfl, rfl, rfl, Or.inr rfl⟩
  | recving src tag i k =>
    simp only [hp] at he ⊢
    split at he
    · cases he
      exact ⟨_, rfl, rfl, rfl, rfl, Or.inr rfl⟩
    · cases he
  | wait w k =>
    simp only [hp] at he ⊢
    split at he
    · rename_i hc
      rw [if_pos hc]
      cases he
      exact ⟨_, rfl, rfl, rfl, rfl, Or.inr rfl⟩
    · cases he
  | read ls k =>
    simp only [hp, Option.some.injEq] at he ⊢
    subst he
    refine ⟨_, rfl, rfl, rfl, rfl, ?_⟩
    rcases hb : busyRead R.reqs ls with _ | _
    · right
      rw [map_store (busyRead_of_req hq hs hb)]
    · left; rfl
  | write lvs k =>
    simp only [hp, Option.some.injEq] at he ⊢
    subst he
    refine ⟨_, rfl, rfl, rfl, rfl, ?_⟩
    rcases hb : busyWrite R.reqs (lvs.map Prod.fst) with _ | _
    · right
      simp only
      rw [store_comm (busy_of_req hq hb)]
    · left; rfl
  | emit ev k =>
    simp only [hp, Option.some.injEq] at he ⊢
    subst he
    exact ⟨_, rfl, rfl, rfl, rfl, Or.inr rfl⟩

/-- a message is copied while its sender goes on -/
theorem eff_msg {r : Nat} {R : Rank L V M E} {sends : Ch → List (Snd L M)}
    {recvs : Ch → List (Rcv L M)} {e : Eff L V M E} (he : locEff r R sends recvs = some e)
    {q : Req L} (hq : q ∈ R.reqs) {p : Payload L M} (hp : q.ls = p.ls) :
    e.bad = true ∨ p.msg e.rank.mem = p.msg R.mem := by
  unfold locEff at he
  cases hpr : R.proc <;> simp only [hpr] at he
  case write lvs k =>
    cases he
    rcases hb : busyWrite R.reqs (lvs.map Prod.fst) with _ | _
    · right
      refine msg_store ?_ _ _
      rw [← hp, overlap_comm]
      exact busy_of_req hq hb
    · left; rfl
  all_goals first
    | (cases he; done)
    | (split at he <;> cases he; exact Or.inr rfl; done)
    | (cases he; exact Or.inr rfl)

/-! ## Moves commute -/

theorem set_get {α : Type} {l : List α} {i j : Nat} {x y : α} (h : (l.set i y)[j]? = some x) :
    (i = j ∧ x = y) ∨ (i ≠ j ∧ l[j]? = some x) := by
  by_cases hij : i = j
  · subst hij
    rw [List.getElem?_set_self'] at h
    rcases hl : l[i]? with _ | z
    · simp [hl] at h
    · simp [hl] at h; exact Or.inl ⟨rfl, h.symm⟩
  · rw [List.getElem?_set_ne hij] at h
    exact Or.inr ⟨hij, h⟩

theorem lt_of_get {α : Type} {l : List α} {i : Nat} {x : α} (h : l[i]? = some x) : i < l.length :=
  (List.getElem?_eq_some_iff.1 h).1

theorem upd_set_get {α : Type} {f : Ch → List α} {c d : Ch} {i j : Nat} {x y z : α}
    (hd : (f d)[j]? = some x) (hc : (f c)[i]? = some z) (hne : x ≠ z) :
    (Function.update f c ((f c).set i y) d)[j]? = some x := by
  by_cases h : d = c
  · subst h
    rw [Function.update_self]
    by_cases hij : i = j
    · subst hij; rw [hc] at hd; cases hd; exact absurd rfl hne
    · rw [List.getElem?_set_ne hij]; exact hd
  · rw [Function.update_of_ne h]; exact hd

theorem upd_set_len {α : Type} (f : Ch → List α) (c d : Ch) (i : Nat) (y : α) :
    (Function.update f c ((f c).set i y) d).length = (f d).length := by
  by_cases h : d = c
  · subst h; simp
  · simp [Function.update_of_ne h]

theorem upd_set_comm {α : Type} {f : Ch → List α} {c d : Ch} {i j : Nat} {x y : α}
    (h : c ≠ d ∨ i ≠ j) :
    Function.update (Function.update f c ((f c).set i x)) d
      ((Function.update f c ((f c).set i x) d).set j y) =
    Function.update (Function.update f d ((f d).set j y)) c
      ((Function.update f d ((f d).set j y) c).set i x) := by
  by_cases hcd : c = d
  · subst hcd
    have hij : i ≠ j := by tauto
    simp [List.set_comm _ _ hij]
  · rw [Function.update_of_ne hcd, Function.update_of_ne (Ne.symm hcd), Function.update_comm hcd]

theorem later_push {r r' : Nat} (hne : r ≠ r') {s : St L V M E} {e : Eff L V M E}
    {R : Rank L V M E} (he : locEff r' R s.sends s.recvs = some e) :
    Later r s.sends (push s.sends e.snd) s.recvs (push s.recvs e.rcv) where
  slen ch h := by
    rw [push_of_ne]
    intro d x hd hc
    exact hne (by rw [← h, ← hc, eff_snd he hd])
  rlen ch h := by
    rw [push_of_ne]
    intro d x hd hc
    exact hne (by rw [← h, ← hc, eff_rcv he hd])
  sget _ _ _ _ h := push_get h
  rget _ _ _ _ h := push_get h

theorem later_fetch (r : Nat) {s : St L V M E} {ch : Ch} {i : Nat} {p : Payload L M} {m : M}
    (h : (s.sends ch)[i]? = some ⟨p, none⟩) :
    Later r s.sends (Function.update s.sends ch ((s.sends ch).set i ⟨p, some m⟩)) s.recvs s.recvs where
  slen c _ := upd_set_len _ _ _ _ _
  rlen _ _ := rfl
  sget c j q m' hc := upd_set_get hc h (by simp)
  rget _ _ _ _ h := h

theorem later_deliver (r : Nat) {s : St L V M E} {ch : Ch} {i : Nat} {ls : Option (List L)} {m : M}
    (h : (s.recvs ch)[i]? = some ⟨ls, none⟩) :
    Later r s.sends s.sends s.recvs (Function.update s.recvs ch ((s.recvs ch).set i ⟨ls, some m⟩)) where
  slen _ _ := rfl
  rlen c _ := upd_set_len _ _ _ _ _
  sget _ _ _ _ h := h
  rget c j q m' hc := upd_set_get hc h (by simp)

/-- joined, or wrong anyway -/
def Joins (eager : Ch → Nat → Bool) (a b : Label) (s1 s2 : St L V M E) : Prop :=
  ∃ t1 t2, next eager s1 b = some t1 ∧ next eager s2 a = some t2 ∧
    ((t1.err = true ∧ t2.err = true) ∨ t1 = t2)

theorem Joins.symm {eager : Ch → Nat → Bool} {a b : Label} {s1 s2 : St L V M E}
    (h : Joins eager a b s1 s2) : Joins eager b a s2 s1 := by
  obtain ⟨t1, t2, h1, h2, h3⟩ := h
  exact ⟨t2, t1, h2, h1, h3.imp And.symm Eq.symm⟩

theorem loc_some {r : Nat} {s t : St L V M E} (h : locStep r s = some t) :
    ∃ e, locEff r (s.ranks r) s.sends s.recvs = some e ∧ t = e.apply r s := by
  rw [locStep_eq] at h
  obtain ⟨e, he, ht⟩ := Option.map_eq_some_iff.1 h
  exact ⟨e, he, ht.symm⟩

theorem loc_loc (eager : Ch → Nat → Bool) {r r' : Nat} (hne : r ≠ r') {s s1 s2 : St L V M E}
    (h1 : locStep r s = some s1) (h2 : locStep r' s = some s2) :
    Joins eager (.loc r) (.loc r') s1 s2 := by
  obtain ⟨e, he, rfl⟩ := loc_some h1
  obtain ⟨f, hf, rfl⟩ := loc_some h2
  refine ⟨f.apply r' (e.apply r s), e.apply r (f.apply r' s), ?_, ?_, Or.inr ?_⟩
  · show locStep _ _ = _
    rw [locStep_eq]
    have : (e.apply r s).ranks r' = s.ranks r' := Function.update_of_ne hne.symm _ _
    rw [this]
    show Option.map _ (locEff r' _ (push s.sends e.snd) (push s.recvs e.rcv)) = _
    rw [(later_push hne.symm he).eff hf]
    rfl
  · show locStep _ _ = _
    rw [locStep_eq]
    have : (f.apply r' s).ranks r = s.ranks r := Function.update_of_ne hne _ _
    rw [this]
    show Option.map _ (locEff r _ (push s.sends f.snd) (push s.recvs f.rcv)) = _
    rw [(later_push hne hf).eff he]
    rfl
  · simp only [Eff.apply, St.mk.injEq]
    refine ⟨Function.update_comm hne _ _ _, ?_, ?_, ?_⟩
    · refine push_comm fun c x d y hc hd hcd => hne ?_
      rw [← eff_snd he hc, ← eff_snd hf hd, hcd]
    · refine push_comm fun c x d y hc hd hcd => hne ?_
      rw [← eff_rcv he hc, ← eff_rcv hf hd, hcd]
    · rw [Bool.or_assoc, Bool.or_comm e.bad, Bool.or_assoc]

theorem loc_fetch (eager : Ch → Nat → Bool) {r : Nat} {ch : Ch} {i : Nat} {s s1 s2 : St L V M E}
    (hw : WF s) (h1 : locStep r s = some s1) (h2 : fetchStep eager ch i s = some s2) :
    Joins eager (.loc r) (.fetch ch i) s1 s2 := by
  obtain ⟨e, he, rfl⟩ := loc_some h1
  obtain ⟨p, hp, hc, hs2⟩ := fetch_some.1 h2
  obtain ⟨q, hq, -, -, -, hls⟩ := hw.snd _ _ _ hp
  refine ⟨_, e.apply r s2, fetch_some.2 ⟨p, push_get hp, ?_, rfl⟩, ?_, ?_⟩
  · refine hc.imp_right fun hl => Nat.lt_of_lt_of_le hl ?_
    obtain ⟨t, ht⟩ := push_apply s.recvs e.rcv ch
    show _ ≤ (push s.recvs e.rcv ch).length
    rw [ht]; simp
  · show locStep _ _ = _
    rw [locStep_eq]
    subst hs2
    show Option.map _ (locEff r (s.ranks r) _ _) = _
    rw [(later_fetch r hp).eff he]
    rfl
  · subst hs2
    have hm : e.bad = true ∨
        p.msg ((e.apply r s).ranks ch.src).mem = p.msg (s.ranks ch.src).mem := by
      by_cases hr : ch.src = r
      · subst hr
        have := eff_msg he hq hls
        simpa [Eff.apply] using this
      · right
        simp [Eff.apply, Function.update_of_ne hr]
    rcases hm with hm | hm
    · left
      simp [Eff.apply, hm]
    · right
      rw [hm]
      simp only [Eff.apply, St.mk.injEq, true_and, and_true]
      exact (push_set (lt_of_get hp)).symm

theorem loc_deliver (eager : Ch → Nat → Bool) {r : Nat} {ch : Ch} {i : Nat} {s s1 s2 : St L V M E}
    (hw : WF s) (h1 : locStep r s = some s1) (h2 : deliverStep ch i s = some s2) :
    Joins eager (.loc r) (.deliver ch i) s1 s2 := by
  obtain ⟨e, he, rfl⟩ := loc_some h1
  obtain ⟨p, m, ls, hp, hl, hs2⟩ := deliver_some.1 h2
  have key : ∃ e', locEff r (if r = ch.dst then
        { s.ranks ch.dst with mem := putMsg ls m (s.ranks ch.dst).mem } else s.ranks r)
        s.sends s.recvs = some e' ∧ e'.snd = e.snd ∧ e'.rcv = e.rcv ∧ e'.bad = e.bad ∧
      (e.bad = true ∨ e'.rank = if r = ch.dst then
        { e.rank with mem := putMsg ls m e.rank.mem } else e.rank) := by
    by_cases hr : r = ch.dst
    · subst hr
      simp only [if_true]
      cases ls with
      | none => exact ⟨e, he, rfl, rfl, rfl, Or.inr rfl⟩
      | some ls =>
        obtain ⟨q, hq, hs, -, -, hls⟩ := hw.rcv _ _ _ hl
        subst hls
        exact eff_mem he hq hs _
    · simp only [if_neg hr]
      exact ⟨e, he, rfl, rfl, rfl, Or.inr rfl⟩
  obtain ⟨e', he', hs', hr', hb', hR⟩ := key
  refine ⟨_, e'.apply r s2, deliver_some.2 ⟨p, m, ls, push_get hp, push_get hl, rfl⟩, ?_, ?_⟩
  · show locStep _ _ = _
    rw [locStep_eq]
    subst hs2
    have hrk : Function.update s.ranks ch.dst
          { s.ranks ch.dst with mem := putMsg ls m (s.ranks ch.dst).mem } r =
        (if r = ch.dst then
          { s.ranks ch.dst with mem := putMsg ls m (s.ranks ch.dst).mem } else s.ranks r) := by
      simp [Function.update_apply]
    show Option.map _ (locEff r (Function.update s.ranks ch.dst _ r) _ _) = _
    rw [hrk, (later_deliver r hl).eff he']
    rfl
  · subst hs2
    rcases hR with hR | hR
    · left
      simp [Eff.apply, hR, hb']
    · right
      simp only [Eff.apply, St.mk.injEq]
      refine ⟨?_, by rw [hs'], ?_, ?_⟩
      · by_cases hr : r = ch.dst
        · subst hr
          simp [hR]
        · rw [hR, if_neg hr, Function.update_of_ne (Ne.symm hr), Function.update_comm hr]
      · rw [hr']
        exact (push_set (lt_of_get hl)).symm
      · rw [hb', Bool.or_assoc, Bool.or_comm e.bad, Bool.or_assoc]

theorem fetch_fetch (eager : Ch → Nat → Bool) {c d : Ch} {i j : Nat} {s s1 s2 : St L V M E}
    (hne : c ≠ d ∨ i ≠ j) (h1 : fetchStep eager c i s = some s1)
    (h2 : fetchStep eager d j s = some s2) :
    Joins eager (.fetch c i) (.fetch d j) s1 s2 := by
  obtain ⟨p, hp, hc, rfl⟩ := fetch_some.1 h1
  obtain ⟨q, hq, hd, rfl⟩ := fetch_some.1 h2
  have g : ∀ {c d : Ch} {i j : Nat} {p q : Payload L M} {m : M}, (c ≠ d ∨ i ≠ j) →
      (s.sends d)[j]? = some ⟨q, none⟩ →
      (Function.update s.sends c ((s.sends c).set i ⟨p, some m⟩) d)[j]? = some ⟨q, none⟩ := by
    intro c d i j p q m hne hq
    by_cases hcd : d = c
    · subst hcd
      rw [Function.update_self, List.getElem?_set_ne (by tauto)]; exact hq
    · rw [Function.update_of_ne hcd]; exact hq
  refine ⟨_, _, fetch_some.2 ⟨q, g hne hq, hd, rfl⟩,
    fetch_some.2 ⟨p, g (hne.imp Ne.symm Ne.symm) hp, hc, rfl⟩, Or.inr ?_⟩
  simp only [St.mk.injEq, true_and, and_true]
  exact upd_set_comm hne

theorem fetch_deliver (eager : Ch → Nat → Bool) {c d : Ch} {i j : Nat} {s s1 s2 : St L V M E}
    (hw : WF s) (h1 : fetchStep eager c i s = some s1) (h2 : deliverStep d j s = some s2) :
    Joins eager (.fetch c i) (.deliver d j) s1 s2 := by
  obtain ⟨p, hp, hc, rfl⟩ := fetch_some.1 h1
  obtain ⟨q, m, ls, hq, hl, rfl⟩ := deliver_some.1 h2
  refine ⟨_, _, deliver_some.2 ⟨q, m, ls, upd_set_get hq hp (by simp), hl, rfl⟩,
    fetch_some.2 ⟨p, hp, ?_, rfl⟩, Or.inr ?_⟩
  · refine hc.imp_right fun h => ?_
    exact (upd_set_len s.recvs d c j _).symm ▸ h
  · simp only [St.mk.injEq, true_and, and_true]
    congr 3
    by_cases hcd : c.src = d.dst
    · rw [hcd, Function.update_self]
      cases ls with
      | none => rfl
      | some ls => exact congrArg some (msg_store (hw.fetch_deliver hcd hp hl) _ _).symm
    · rw [Function.update_of_ne hcd]

theorem deliver_deliver (eager : Ch → Nat → Bool) {c d : Ch} {i j : Nat} {s s1 s2 : St L V M E}
    (hw : WF s) (hne : c ≠ d ∨ i ≠ j) (h1 : deliverStep c i s = some s1)
    (h2 : deliverStep d j s = some s2) :
    Joins eager (.deliver c i) (.deliver d j) s1 s2 := by
  obtain ⟨p, m, la, hp, ha, rfl⟩ := deliver_some.1 h1
  obtain ⟨q, n, lb, hq, hb, rfl⟩ := deliver_some.1 h2
  have g : ∀ {c d : Ch} {i j : Nat} {la lb : Option (List L)} {m : M}, (c ≠ d ∨ i ≠ j) →
      (s.recvs d)[j]? = some ⟨lb, none⟩ →
      (Function.update s.recvs c ((s.recvs c).set i ⟨la, some m⟩) d)[j]? = some ⟨lb, none⟩ := by
    intro c d i j la lb m hne hq
    by_cases hcd : d = c
    · subst hcd
      rw [Function.update_self, List.getElem?_set_ne (by tauto)]; exact hq
    · rw [Function.update_of_ne hcd]; exact hq
  refine ⟨_, _, deliver_some.2 ⟨q, n, lb, hq, g hne hb, rfl⟩,
    deliver_some.2 ⟨p, m, la, hp, g (hne.imp Ne.symm Ne.symm) ha, rfl⟩, Or.inr ?_⟩
  simp only [St.mk.injEq, true_and]
  refine ⟨?_, upd_set_comm hne, by rw [Bool.or_assoc, Bool.or_comm (overflow V la m), Bool.or_assoc]⟩
  by_cases hcd : c.dst = d.dst
  · rw [hcd]
    simp only [Function.update_self, Function.update_idem]
    congr 2
    rcases la with _ | la
    · rfl
    rcases lb with _ | lb
    · rfl
    exact (store_comm (hw.deliver_deliver hcd ha hb hne) _ _ _).symm
  · rw [Function.update_of_ne hcd, Function.update_of_ne (Ne.symm hcd), Function.update_comm hcd]

/-- **Diamond**: two moves can be made in either order. -/
theorem diamond (eager : Ch → Nat → Bool) {a b : Label} (hab : a ≠ b) {s s1 s2 : St L V M E}
    (hw : WF s) (h1 : next eager s a = some s1) (h2 : next eager s b = some s2) :
    Joins eager a b s1 s2 := by
  cases a with
  | loc r =>
    cases b with
    | loc r' => exact loc_loc eager (fun h => hab (by rw [h])) h1 h2
    | fetch d j => exact loc_fetch eager hw h1 h2
    | deliver d j => exact loc_deliver eager hw h1 h2
  | fetch c i =>
    cases b with
    | loc r' => exact (loc_fetch eager hw h2 h1).symm
    | fetch d j => exact fetch_fetch eager (by rw [Ne, Label.fetch.injEq] at hab; tauto) h1 h2
    | deliver d j => exact fetch_deliver eager hw h1 h2
  | deliver c i =>
    cases b with
    | loc r' => exact (loc_deliver eager hw h2 h1).symm
    | fetch d j => exact (fetch_deliver eager hw h2 h1).symm
    | deliver d j =>
      exact deliver_deliver eager hw (by rw [Ne, Label.deliver.injEq] at hab; tauto) h1 h2

/-! ## Requests go on owning their memory -/

theorem err_mono {eager : Ch → Nat → Bool} {a : Label} {s t : St L V M E}
    (h : next eager s a = some t) (he : s.err = true) : t.err = true := by
  cases a with
  | loc r =>
    obtain ⟨e, -, rfl⟩ := loc_some h
    simp [Eff.apply, he]
  | fetch c i =>
    obtain ⟨p, -, -, rfl⟩ := fetch_some.1 h
    exact he
  | deliver c i =>
    obtain ⟨p, m, ls, -, -, rfl⟩ := deliver_some.1 h
    simp [he]

theorem push_get_cases {α : Type} {f : Ch → List α} {o : Option (Ch × α)} {c : Ch} {i : Nat} {x : α}
    (h : (push f o c)[i]? = some x) : (f c)[i]? = some x ∨ (o = some (c, x) ∧ i = (f c).length) := by
  rcases o with _ | ⟨d, y⟩
  · exact Or.inl h
  · by_cases hc : c = d
    · subst hc
      simp only [push, Function.update_self] at h
      rcases Nat.lt_trichotomy i (f c).length with hi | hi | hi
      · rw [List.getElem?_append_left hi] at h; exact Or.inl h
      · subst hi
        simp at h
        subst h
        exact Or.inr ⟨rfl, rfl⟩
      · rw [List.getElem?_eq_none (by simp; omega)] at h
        cases h
    · simp only [push, Function.update_of_ne hc] at h
      exact Or.inl h

theorem wf_loc {r : Nat} {s t : St L V M E} (hw : WF s) (h : locStep r s = some t)
    (ht : t.err = false) : WF t := by
  obtain ⟨e, he, rfl⟩ := loc_some h
  have hb : e.bad = false := by
    simp only [Eff.apply, Bool.or_eq_false_iff] at ht; exact ht.2
  -- requests which are still needed stay
  have keep : ∀ q ∈ (s.ranks r).reqs, fin' s.sends s.recvs q = false → q ∈ e.rank.reqs := by
    intro q hq hf
    unfold locEff at he
    cases hp : (s.ranks r).proc <;> simp only [hp] at he
    case wait w k =>
      split at he
      · rename_i hc
        cases he
        rw [List.mem_filter]
        refine ⟨hq, ?_⟩
        have := (List.all_eq_true.1 hc) q hq
        simpa [hf] using this
      · cases he
    all_goals first
      | (cases he; done)
      | (split at he <;> cases he; exact hq; done)
      | (cases he; first | exact hq | exact List.mem_cons_of_mem _ hq)
  have hsnew : ∀ c x, e.snd = some (c, x) → ∃ q ∈ e.rank.reqs, q.snd = true ∧ q.ch = c ∧
      q.i = (s.sends c).length ∧ q.ls = x.pay.ls := by
    intro c x hx
    unfold locEff at he
    cases hp : (s.ranks r).proc <;> simp only [hp] at he
    case isend dst tag w p k =>
      cases he
      cases hx
      exact ⟨_, List.mem_cons_self, rfl, rfl, rfl, rfl⟩
    all_goals first
      | (cases he; done)
      | (split at he <;> cases he; cases hx; done)
      | (cases he; cases hx; done)
  have hrnew : ∀ c ls, e.rcv = some (c, ⟨some ls, none⟩) → ∃ q ∈ e.rank.reqs, q.snd = false ∧
      q.ch = c ∧ q.i = (s.recvs c).length ∧ q.ls = ls := by
    intro c x hx
    unfold locEff at he
    cases hp : (s.ranks r).proc <;> simp only [hp] at he
    case irecv src tag w ls k =>
      cases he
      cases hx
      exact ⟨_, List.mem_cons_self, rfl, rfl, rfl, rfl⟩
    all_goals first
      | (cases he; done)
      | (split at he <;> cases he; cases hx; done)
      | (cases he; cases hx; done)
  refine ⟨?_, ?_, ?_⟩
  · intro c i p hc
    rcases push_get_cases hc with hc' | ⟨hc, hi⟩
    · obtain ⟨q, hq, q1, q2, q3, q4⟩ := hw.snd _ _ _ hc'
      by_cases hr : c.src = r
      · subst hr
        refine ⟨q, ?_, q1, q2, q3, q4⟩
        simp only [Eff.apply, Function.update_self]
        refine keep q hq ?_
        simp [fin', q1, q2, q3, hc']
      · exact ⟨q, by simpa only [Eff.apply, Function.update_of_ne hr] using hq, q1, q2, q3, q4⟩
    · obtain ⟨q, hq, q1, q2, q3, q4⟩ := hsnew _ _ hc
      have hr := eff_snd he hc
      subst hr
      exact ⟨q, by simpa only [Eff.apply, Function.update_self] using hq, q1, q2, by rw [q3, hi], q4⟩
  · intro c i ls hc
    rcases push_get_cases hc with hc' | ⟨hc, hi⟩
    · obtain ⟨q, hq, q1, q2, q3, q4⟩ := hw.rcv _ _ _ hc'
      by_cases hr : c.dst = r
      · subst hr
        refine ⟨q, ?_, q1, q2, q3, q4⟩
        simp only [Eff.apply, Function.update_self]
        refine keep q hq ?_
        simp [fin', q1, q2, q3, hc']
      · exact ⟨q, by simpa only [Eff.apply, Function.update_of_ne hr] using hq, q1, q2, q3, q4⟩
    · obtain ⟨q, hq, q1, q2, q3, q4⟩ := hrnew _ _ hc
      have hr := eff_rcv he hc
      subst hr
      exact ⟨q, by simpa only [Eff.apply, Function.update_self] using hq, q1, q2, by rw [q3, hi], q4⟩
  · intro r'
    by_cases hr : r' = r
    · subst hr
      simp only [Eff.apply, Function.update_self]
      have hpw := hw.pw r'
      unfold locEff at he
      cases hp : (s.ranks r').proc <;> simp only [hp] at he
      case isend dst tag w p k =>
        cases he
        rw [List.pairwise_cons]
        refine ⟨fun q hq hs => ?_, hpw⟩
        simp only [Bool.true_eq_false, false_or] at hs
        exact busyRead_of_req hq hs hb
      case irecv src tag w ls k =>
        cases he
        rw [List.pairwise_cons]
        exact ⟨fun q hq hs => busy_of_req hq hb, hpw⟩
      case wait w k =>
        split at he
        · cases he
          exact hpw.filter _
        · cases he
      all_goals first
        | (cases he; done)
        | (split at he <;> cases he; exact hpw; done)
        | (cases he; exact hpw)
    · simp only [Eff.apply, Function.update_of_ne hr]
      exact hw.pw r'

theorem wf_fetch {eager : Ch → Nat → Bool} {ch : Ch} {i : Nat} {s t : St L V M E} (hw : WF s)
    (h : fetchStep eager ch i s = some t) : WF t := by
  obtain ⟨p, hp, hc, rfl⟩ := fetch_some.1 h
  refine ⟨?_, hw.rcv, hw.pw⟩
  intro c j q hq
  refine hw.snd c j q ?_
  simp only at hq
  by_cases hcd : c = ch
  · subst hcd
    rw [Function.update_self] at hq
    rcases set_get hq with ⟨-, hq⟩ | ⟨-, hq⟩
    · cases hq
    · exact hq
  · rw [Function.update_of_ne hcd] at hq; exact hq

theorem wf_deliver {ch : Ch} {i : Nat} {s t : St L V M E} (hw : WF s)
    (h : deliverStep ch i s = some t) : WF t := by
  obtain ⟨p, m, ls, hp, hl, rfl⟩ := deliver_some.1 h
  have hreq : ∀ r, (Function.update s.ranks ch.dst
      { s.ranks ch.dst with mem := putMsg ls m (s.ranks ch.dst).mem } r).reqs = (s.ranks r).reqs := by
    intro r
    by_cases hr : r = ch.dst
    · subst hr; simp
    · simp [Function.update_of_ne hr]
  refine ⟨?_, ?_, ?_⟩
  · intro c j q hq
    simp only [hreq]
    exact hw.snd c j q hq
  · intro c j la hq
    simp only [hreq]
    refine hw.rcv c j la ?_
    simp only at hq
    by_cases hcd : c = ch
    · subst hcd
      rw [Function.update_self] at hq
      rcases set_get hq with ⟨-, hq⟩ | ⟨-, hq⟩
      · cases hq
      · exact hq
    · rw [Function.update_of_ne hcd] at hq; exact hq
  · intro r
    simp only [hreq]
    exact hw.pw r

theorem wf_next {eager : Ch → Nat → Bool} {a : Label} {s t : St L V M E} (hw : WF s)
    (h : next eager s a = some t) (ht : t.err = false) : WF t := by
  cases a with
  | loc r => exact wf_loc hw h ht
  | fetch c i => exact wf_fetch hw h
  | deliver c i => exact wf_deliver hw h

/-! ## One schedule for all -/

theorem run_err {eager : Ch → Nat → Bool} {n : Nat} {s t : St L V M E} (h : Run eager n s t)
    (ht : t.err = false) : s.err = false := by
  induction h with
  | refl => exact ht
  | step hst _ ih =>
    obtain ⟨a, ha⟩ := hst
    have := ih ht
    rcases he : St.err _ with _ | _
    · rfl
    · rw [err_mono ha he] at this; cases this

/-- nobody moves any more -/
theorem Final.stuck {eager : Ch → Nat → Bool} {f t : St L V M E} (hf : Final f) :
    ¬ Step eager f t := by
  rintro ⟨b, hb⟩
  cases b with
  | loc r =>
    obtain ⟨e, he, -⟩ := loc_some hb
    simp [locEff, hf.done r] at he
  | fetch c i =>
    obtain ⟨p, hp, -⟩ := fetch_some.1 hb
    have := hf.sent c _ (List.mem_of_getElem? hp)
    cases this
  | deliver c i =>
    obtain ⟨p, m, ls, -, hl, -⟩ := deliver_some.1 hb
    have := hf.rcvd c _ (List.mem_of_getElem? hl)
    cases this

/-- after a different first move the same end is one move closer -/
theorem run_swap {eager : Ch → Nat → Bool} : ∀ {n : Nat} {s t f : St L V M E}, WF s →
    Run eager n s f → Final f → Step eager s t → ∃ m, n = m + 1 ∧ Run eager m t f := by
  intro n
  induction n with
  | zero =>
    intro s t f _ hr hf hst
    cases hr
    exact absurd hst hf.stuck
  | succ n ih =>
    intro s t f hw hr hf ⟨b, hb⟩
    cases hr with
    | step hst hrun =>
      rename_i u
      obtain ⟨a, ha⟩ := hst
      refine ⟨n, rfl, ?_⟩
      by_cases hab : a = b
      · subst hab
        rw [ha] at hb
        cases hb
        exact hrun
      · obtain ⟨t1, t2, h1, h2, hj⟩ := diamond eager hab hw ha hb
        have hu : u.err = false := run_err hrun hf.err
        obtain ⟨m, rfl, hm⟩ := ih (wf_next hw ha hu) hrun hf ⟨b, h1⟩
        have h1e : t1.err = false := run_err hm hf.err
        rcases hj with ⟨hj, -⟩ | hj
        · rw [h1e] at hj; cases hj
        · subst hj
          exact Run.step ⟨a, h2⟩ hm

/-- **One schedule for all**: if some schedule ends well after `n` moves, then so does every
other: whatever was done so far (`k` moves), `n - k` moves are left, which lead to the same end, and
it's only there that everything stops. -/
theorem one_for_all {eager : Ch → Nat → Bool} {n : Nat} {s f : St L V M E} (hw : WF s)
    (hr : Run eager n s f) (hf : Final f) {k : Nat} {t : St L V M E} (ht : Run eager k s t) :
    ∃ m, n = k + m ∧ Run eager m t f ∧ t.err = false ∧ (m = 0 → t = f) ∧
      ((∀ u, ¬ Step eager t u) → t = f) := by
  induction ht generalizing n with
  | refl s =>
    refine ⟨n, by omega, hr, run_err hr hf.err, ?_, ?_⟩
    · rintro rfl; cases hr; rfl
    · intro hstuck
      cases hr with
      | refl => rfl
      | step hst _ => exact absurd hst (hstuck _)
  | step hst _ ih =>
    obtain ⟨m, rfl, hm⟩ := run_swap hw hr hf hst
    obtain ⟨a, ha⟩ := hst
    obtain ⟨j, hj, h⟩ := ih (wf_next hw ha (run_err hm hf.err)) hm
    exact ⟨j, by omega, h⟩

end LGD.Mpi
