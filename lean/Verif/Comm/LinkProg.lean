import Verif.Comm.LinkProgModel
import Verif.Comm.Exchange

/-!
# Moves of ranks with links
-/

namespace LGD.LinkProg
open LGD.Mpi

variable {σ β : Type}

/-- what is pending on a channel -/
inductive Lnk (σ β : Type) where
  /-- nothing -/
  | idle
  /-- a receive -/
  | posted (ls : List Loc)
  /-- a send -/
  | half (ls : List Loc)

/-- the handle of the link to which some memory belongs -/
def owner : Loc → Option Nat
  | .st => none
  | .sb q _ => some (hs q)
  | .ss q => some (hs q)
  | .rb q _ => some (hr q)
  | .rs q => some (hr q)

abbrev SS (σ β : Type) := St Loc (Val σ β) (List (Val σ β)) Empty

/-- the operations on a channel -/
def ChOK (sd : List (Snd Loc (List (Val σ β)))) (rc : List (Rcv Loc (List (Val σ β)))) : Lnk σ β → Prop
  | .idle => (∀ e ∈ sd, e.data.isSome) ∧ (∀ e ∈ rc, e.got.isSome) ∧ sd.length = rc.length
  | .posted ls => ∃ rc', rc = rc' ++ [⟨some ls, none⟩] ∧ (∀ e ∈ sd, e.data.isSome) ∧ (∀ e ∈ rc', e.got.isSome) ∧ sd.length = rc'.length
  | .half ls => ∃ sd', sd = sd' ++ [⟨.cells ls, none⟩] ∧ (∀ e ∈ sd', e.data.isSome) ∧ (∀ e ∈ rc, e.got.isSome) ∧ sd'.length = rc.length

/-- a request of rank `r` belongs to one of its links -/
structure ReqOK (T : Net σ β) (s : SS σ β) (r : Nat) (q : Req Loc) : Prop where
  own : ∀ l ∈ q.ls, owner l = some q.h
  snd : q.snd = true → q.h = hs q.ch.dst ∧ q.ch.src = r ∧ q.ch.tag = tag ∧ q.ch.dst ∈ T.dst r ∧ q.i < (s.sends q.ch).length
  rcv : q.snd = false → q.h = hr q.ch.src ∧ q.ch.dst = r ∧ q.ch.tag = tag ∧ q.ch.src ∈ T.src r ∧ q.i < (s.recvs q.ch).length

/-- invariant -/
structure G (T : Net σ β) (s : SS σ β) (lk : Ch → Lnk σ β) : Prop where
  err : s.err = false
  ch : ∀ c, ChOK (s.sends c) (s.recvs c) (lk c)
  reqs : ∀ r, ∀ q ∈ (s.ranks r).reqs, ReqOK T s r q

/-- rank `r` has no requests with this handle -/
def Free (s : SS σ β) (r h : Nat) : Prop := ∀ q ∈ (s.ranks r).reqs, q.h ≠ h

variable {T : Net σ β} {s : SS σ β} {lk : Ch → Lnk σ β} {eager : Ch → Nat → Bool}

theorem overlap_false {a b : List Loc} (h : ∀ l ∈ a, ∀ l' ∈ b, l ≠ l') : overlap a b = false := by
  unfold overlap
  rw [List.any_eq_false]
  intro l hl hc
  rw [List.contains_iff_mem] at hc
  exact h l hl l hc rfl

/-- memory without an owner, or of a free link, isn't busy -/
theorem G.idle_mem (hG : G T s lk) {r : Nat} {ls : List Loc} (h : ∀ l ∈ ls, ∀ w, owner l = some w → Free s r w) :
    busyWrite (s.ranks r).reqs ls = false := by
  unfold busyWrite
  rw [List.any_eq_false]
  intro q hq
  rw [Bool.not_eq_true]
  refine overlap_false fun l hl l' hl' e => ?_
  subst e
  exact h l hl _ ((hG.reqs r q hq).own l hl') q hq rfl

theorem busyRead_of_write {reqs : List (Req Loc)} {ls : List Loc} (h : busyWrite reqs ls = false) : busyRead reqs ls = false := by
  unfold busyWrite at h
  unfold busyRead
  rw [List.any_eq_false] at h ⊢
  intro q hq hc
  rw [Bool.and_eq_true] at hc
  exact h q hq hc.2

/-- memory of accepters may always be read -/
theorem G.read_acc (hG : G T s lk) {r p : Nat} {ls : List Loc} (h : ∀ l ∈ ls, owner l = some (hs p)) :
    busyRead (s.ranks r).reqs ls = false := by
  unfold busyRead
  rw [List.any_eq_false]
  intro q hq hc
  rw [Bool.and_eq_true] at hc
  have hf : q.snd = false := by simpa using hc.1
  have h1 := ((hG.reqs r q hq).rcv hf).1
  have : overlap ls q.ls = false := overlap_false fun l hl l' hl' e => by
    subst e
    have h2 := (hG.reqs r q hq).own l hl'
    rw [h l hl, Option.some.injEq] at h2
    unfold hs at h2
    unfold hr at h1
    omega
  rw [this] at hc
  exact absurd hc.2 (by simp)

/-- The requests of a link accepter are finished if there's no pending send, … -/
theorem G.finished_snd (hG : G T s lk) {r : Nat} {q : Req Loc} (hq : q ∈ (s.ranks r).reqs) (hs : q.snd = true)
    (hl : ∀ ls, lk q.ch ≠ .half ls) : finished s q = true := by
  have hi := ((hG.reqs r q hq).snd hs).2.2.2.2
  unfold finished
  rw [if_pos hs, List.getElem?_eq_getElem hi]
  have hc := hG.ch q.ch
  cases hk : lk q.ch with
  | idle => rw [hk] at hc; exact hc.1 _ (List.getElem_mem hi)
  | posted ls =>
    rw [hk] at hc
    obtain ⟨rc, -, h2, -⟩ := hc
    exact h2 _ (List.getElem_mem hi)
  | half ls => exact absurd hk (hl ls)

/-- … those of a link provider if there's no pending receive. -/
theorem G.finished_rcv (hG : G T s lk) {r : Nat} {q : Req Loc} (hq : q ∈ (s.ranks r).reqs) (hs : q.snd = false)
    (hl : ∀ ls, lk q.ch ≠ .posted ls) : finished s q = true := by
  have hi := ((hG.reqs r q hq).rcv hs).2.2.2.2
  unfold finished
  rw [if_neg (by simp [hs]), List.getElem?_eq_getElem hi]
  have hc := hG.ch q.ch
  cases hk : lk q.ch with
  | idle => rw [hk] at hc; exact hc.2.1 _ (List.getElem_mem hi)
  | posted ls => exact absurd hk (hl ls)
  | half ls =>
    rw [hk] at hc
    obtain ⟨rc, -, -, h2, -⟩ := hc
    exact h2 _ (List.getElem_mem hi)

theorem G.setRank (hG : G T s lk) {r : Nat} {R : Rank Loc (Val σ β) (List (Val σ β)) Empty}
    (hR : ∀ q ∈ R.reqs, q ∈ (s.ranks r).reqs) : G T (s.setRank r R) lk := by
  refine ⟨hG.err, hG.ch, fun r' q hq => ?_⟩
  have : q ∈ (s.ranks r').reqs := by
    by_cases h : r' = r
    · subst h
      rw [show (s.setRank r' R).ranks r' = R from Function.update_self ..] at hq
      exact hR q hq
    · rwa [show (s.setRank r R).ranks r' = s.ranks r' from Function.update_of_ne h ..] at hq
  have := hG.reqs r' q this
  exact ⟨this.own, this.snd, this.rcv⟩

/-- a wait which doesn't block -/
theorem op_wait (hG : G T s lk) {r w : Nat} {k : P σ β} (hp : (s.ranks r).proc = .wait w k)
    (hf : ∀ q ∈ (s.ranks r).reqs, q.h = w → finished s q = true) :
    ∃ t, RunTo eager s t ∧ G T t lk ∧ (t.ranks r).proc = k ∧ (t.ranks r).mem = (s.ranks r).mem ∧ Free t r w ∧
      (∀ z, z ≠ r → t.ranks z = s.ranks z) ∧ ∀ h, Free s r h → Free t r h := by
  refine ⟨s.setRank r { s.ranks r with proc := k, reqs := (s.ranks r).reqs.filter fun q => q.h != w }, ?_, ?_, ?_, ?_, ?_, ?_, ?_⟩
  · refine RunTo.head (a := .loc r) ?_ (RunTo.refl _)
    show locStep r s = _
    unfold locStep
    simp only [hp]
    rw [if_pos]
    · rfl
    · rw [List.all_eq_true]
      intro q hq
      by_cases hw : q.h = w
      · rw [hf q hq hw, Bool.or_true]
      · simp [hw]
  · exact hG.setRank fun q hq => List.mem_of_mem_filter hq
  · simp [St.setRank]
  · simp [St.setRank]
  · intro q hq
    simp only [St.setRank, Function.update_self, List.mem_filter] at hq
    simpa using hq.2
  · intro z hz
    exact Function.update_of_ne hz ..
  · intro h hh q hq
    simp only [St.setRank, Function.update_self, List.mem_filter] at hq
    exact hh q hq.1

theorem op_wait_acc (hG : G T s lk) {r p : Nat} {k : P σ β} (hp : (s.ranks r).proc = .wait (hs p) k)
    (hl : ∀ ls, lk ⟨r, p, tag⟩ ≠ .half ls) :
    ∃ t, RunTo eager s t ∧ G T t lk ∧ (t.ranks r).proc = k ∧ (t.ranks r).mem = (s.ranks r).mem ∧ Free t r (hs p) ∧
      (∀ z, z ≠ r → t.ranks z = s.ranks z) ∧ ∀ h, Free s r h → Free t r h := by
  refine op_wait hG hp fun q hq hw => ?_
  have hR := hG.reqs r q hq
  cases hs' : q.snd with
  | true =>
    obtain ⟨h1, h2, h3, -, -⟩ := hR.snd hs'
    refine hG.finished_snd hq hs' fun ls => ?_
    have : q.ch = ⟨r, p, tag⟩ := by
      have h4 : q.ch.dst = p := by unfold hs at h1 hw; omega
      rw [← h2, ← h3, ← h4]
    rw [this]
    exact hl ls
  | false =>
    have h1 := (hR.rcv hs').1
    unfold hr at h1; unfold hs at hw
    omega

theorem op_wait_prov (hG : G T s lk) {r p : Nat} {k : P σ β} (hp : (s.ranks r).proc = .wait (hr p) k)
    (hl : ∀ ls, lk ⟨p, r, tag⟩ ≠ .posted ls) :
    ∃ t, RunTo eager s t ∧ G T t lk ∧ (t.ranks r).proc = k ∧ (t.ranks r).mem = (s.ranks r).mem ∧ Free t r (hr p) ∧
      (∀ z, z ≠ r → t.ranks z = s.ranks z) ∧ ∀ h, Free s r h → Free t r h := by
  refine op_wait hG hp fun q hq hw => ?_
  have hR := hG.reqs r q hq
  cases hs' : q.snd with
  | false =>
    obtain ⟨h1, h2, h3, -, -⟩ := hR.rcv hs'
    refine hG.finished_rcv hq hs' fun ls => ?_
    have : q.ch = ⟨p, r, tag⟩ := by
      have h4 : q.ch.src = p := by unfold hr at h1 hw; omega
      rw [← h2, ← h3, ← h4]
    rw [this]
    exact hl ls
  | true =>
    have h1 := (hR.snd hs').1
    unfold hs at h1; unfold hr at hw
    omega

theorem op_read (hG : G T s lk) {r : Nat} {ls : List Loc} {k : List (Val σ β) → P σ β} (hp : (s.ranks r).proc = .read ls k)
    (hb : busyRead (s.ranks r).reqs ls = false) :
    ∃ t, RunTo eager s t ∧ G T t lk ∧ (t.ranks r).proc = k (ls.map (s.ranks r).mem) ∧ (t.ranks r).mem = (s.ranks r).mem ∧
      (∀ z, z ≠ r → t.ranks z = s.ranks z) ∧ ∀ h, Free s r h → Free t r h := by
  refine ⟨_, run_read hp hb, hG.setRank fun q hq => hq, ?_, ?_, fun z hz => Function.update_of_ne hz .., ?_⟩
  · simp [St.setRank]
  · simp [St.setRank]
  · intro h hh q hq
    simp only [St.setRank, Function.update_self] at hq
    exact hh q hq

theorem op_write (hG : G T s lk) {r : Nat} {lvs : List (Loc × Val σ β)} {k : P σ β} (hp : (s.ranks r).proc = .write lvs k)
    (hb : busyWrite (s.ranks r).reqs (lvs.map Prod.fst) = false) :
    ∃ t, RunTo eager s t ∧ G T t lk ∧ (t.ranks r).proc = k ∧
      (t.ranks r).mem = store (lvs.map Prod.fst) (lvs.map Prod.snd) (s.ranks r).mem ∧
      (∀ z, z ≠ r → t.ranks z = s.ranks z) ∧ ∀ h, Free s r h → Free t r h := by
  refine ⟨_, run_write hp hb, hG.setRank fun q hq => hq, ?_, ?_, fun z hz => Function.update_of_ne hz .., ?_⟩
  · simp [St.setRank]
  · simp [St.setRank]
  · intro h hh q hq
    simp only [St.setRank, Function.update_self] at hq
    exact hh q hq

theorem ReqOK.mono {s t : SS σ β} {r : Nat} {q : Req Loc} (h : ReqOK T s r q) (h1 : ∀ c, (s.sends c).length ≤ (t.sends c).length)
    (h2 : ∀ c, (s.recvs c).length ≤ (t.recvs c).length) : ReqOK T t r q :=
  ⟨h.own, fun e => ⟨(h.snd e).1, (h.snd e).2.1, (h.snd e).2.2.1, (h.snd e).2.2.2.1, Nat.lt_of_lt_of_le (h.snd e).2.2.2.2 (h1 _)⟩,
    fun e => ⟨(h.rcv e).1, (h.rcv e).2.1, (h.rcv e).2.2.1, (h.rcv e).2.2.2.1, Nat.lt_of_lt_of_le (h.rcv e).2.2.2.2 (h2 _)⟩⟩

/-- a receive is posted first -/
theorem op_post (hG : G T s lk) {r q : Nat} {ls : List Loc} {k : P σ β} (hp : (s.ranks r).proc = .irecv q tag (hr q) ls k)
    (hl : lk ⟨q, r, tag⟩ = .idle) (hq : q ∈ T.src r) (ho : ∀ l ∈ ls, owner l = some (hr q)) (hf : Free s r (hr q)) :
    ∃ t, RunTo eager s t ∧ G T t (Function.update lk ⟨q, r, tag⟩ (.posted ls)) ∧ (t.ranks r).proc = k ∧ (t.ranks r).mem = (s.ranks r).mem ∧
      (∀ z, z ≠ r → t.ranks z = s.ranks z) ∧ ∀ h, h ≠ hr q → Free s r h → Free t r h := by
  set ch : Ch := ⟨q, r, tag⟩ with hch
  let t : SS σ β := { s with
    ranks := Function.update s.ranks r
      { s.ranks r with proc := k, reqs := ⟨hr q, false, ch, (s.recvs ch).length, ls⟩ :: (s.ranks r).reqs }
    recvs := Function.update s.recvs ch (s.recvs ch ++ [⟨some ls, none⟩]) }
  have e1 : next eager s (.loc r) = some t := by
    show locStep r s = _
    unfold locStep
    simp only [hp]
    rw [hG.idle_mem (ls := ls) (fun l hl w hw => by rw [ho l hl] at hw; cases hw; exact hf), Bool.or_false]
  have hlen : ∀ c, (s.recvs c).length ≤ (t.recvs c).length := by
    intro c
    by_cases hc : c = ch
    · subst hc; simp [t]
    · simp [t, Function.update_of_ne hc]
  refine ⟨t, RunTo.head e1 (RunTo.refl _), ⟨hG.err, fun c => ?_, fun r' x hx => ?_⟩, by simp [t], by simp [t], fun z hz => by simp [t, hz],
    fun h hh hfr x hx => ?_⟩
  · by_cases hc : c = ch
    · subst hc
      have := hG.ch ch
      rw [hl] at this
      rw [Function.update_self]
      refine ⟨s.recvs ch, by simp [t], this.1, this.2.1, this.2.2⟩
    · rw [Function.update_of_ne hc]
      have := hG.ch c
      simpa [t, Function.update_of_ne hc] using this
  · by_cases h : r' = r
    · subst h
      simp only [t, Function.update_self, List.mem_cons] at hx
      rcases hx with rfl | hx
      · refine ⟨ho, fun e => by (cases e), fun _ => ⟨rfl, rfl, rfl, hq, ?_⟩⟩
        simp [t]
      · exact (hG.reqs r' x hx).mono (fun _ => Nat.le_refl _) hlen
    · simp only [t, Function.update_of_ne h] at hx
      exact (hG.reqs r' x hx).mono (fun _ => Nat.le_refl _) hlen
  · simp only [t, Function.update_self, List.mem_cons] at hx
    rcases hx with rfl | hx
    · exact fun e => hh e.symm
    · exact hfr x hx

/-- a send is posted first -/
theorem op_half (hG : G T s lk) {r q : Nat} {ls : List Loc} {k : P σ β} (hp : (s.ranks r).proc = .isend q tag (hs q) (.cells ls) k)
    (hl : lk ⟨r, q, tag⟩ = .idle) (hq : q ∈ T.dst r) (ho : ∀ l ∈ ls, owner l = some (hs q)) :
    ∃ t, RunTo eager s t ∧ G T t (Function.update lk ⟨r, q, tag⟩ (.half ls)) ∧ (t.ranks r).proc = k ∧ (t.ranks r).mem = (s.ranks r).mem ∧
      (∀ z, z ≠ r → t.ranks z = s.ranks z) ∧ ∀ h, h ≠ hs q → Free s r h → Free t r h := by
  set ch : Ch := ⟨r, q, tag⟩ with hch
  let t : SS σ β := { s with
    ranks := Function.update s.ranks r
      { s.ranks r with proc := k, reqs := ⟨hs q, true, ch, (s.sends ch).length, ls⟩ :: (s.ranks r).reqs }
    sends := Function.update s.sends ch (s.sends ch ++ [⟨.cells ls, none⟩]) }
  have e1 : next eager s (.loc r) = some t := by
    show locStep r s = _
    unfold locStep
    simp only [hp, Payload.ls]
    rw [hG.read_acc ho, Bool.or_false]
  have hlen : ∀ c, (s.sends c).length ≤ (t.sends c).length := by
    intro c
    by_cases hc : c = ch
    · subst hc; simp [t]
    · simp [t, Function.update_of_ne hc]
  refine ⟨t, RunTo.head e1 (RunTo.refl _), ⟨hG.err, fun c => ?_, fun r' x hx => ?_⟩, by simp [t], by simp [t], fun z hz => by simp [t, hz],
    fun h hh hfr x hx => ?_⟩
  · by_cases hc : c = ch
    · subst hc
      have := hG.ch ch
      rw [hl] at this
      rw [Function.update_self]
      refine ⟨s.sends ch, by simp [t], this.1, this.2.1, this.2.2⟩
    · rw [Function.update_of_ne hc]
      have := hG.ch c
      simpa [t, Function.update_of_ne hc] using this
  · by_cases h : r' = r
    · subst h
      simp only [t, Function.update_self, List.mem_cons] at hx
      rcases hx with rfl | hx
      · refine ⟨ho, fun _ => ⟨rfl, rfl, rfl, hq, ?_⟩, fun e => by cases e⟩
        simp [t]
      · exact (hG.reqs r' x hx).mono hlen (fun _ => Nat.le_refl _)
    · simp only [t, Function.update_of_ne h] at hx
      exact (hG.reqs r' x hx).mono hlen (fun _ => Nat.le_refl _)
  · simp only [t, Function.update_self, List.mem_cons] at hx
    rcases hx with rfl | hx
    · exact fun e => hh e.symm
    · exact hfr x hx

/-- both operations of a channel are posted: the message is copied -/
theorem op_copy {s : SS σ β} {ch : Ch} {ls ls' : List Loc} {sd rc} (h1 : s.sends ch = sd ++ [⟨.cells ls, none⟩])
    (h2 : s.recvs ch = rc ++ [⟨some ls', none⟩]) (h3 : sd.length = rc.length) (hls : ls.length ≤ ls'.length) :
    RunTo eager s { s with
      ranks := Function.update s.ranks ch.dst
        { s.ranks ch.dst with mem := store ls' (ls.map (s.ranks ch.src).mem) (s.ranks ch.dst).mem }
      sends := Function.update s.sends ch (sd ++ [⟨.cells ls, some (ls.map (s.ranks ch.src).mem)⟩])
      recvs := Function.update s.recvs ch (rc ++ [⟨some ls', some (ls.map (s.ranks ch.src).mem)⟩]) } := by
  let m : List (Val σ β) := ls.map (s.ranks ch.src).mem
  let s3 : SS σ β := { s with sends := Function.update s.sends ch (sd ++ [⟨.cells ls, some m⟩]) }
  have e3 : next eager s (.fetch ch sd.length) = some s3 := by
    refine fetch_some.2 ⟨.cells ls, ?_, Or.inr ?_, ?_⟩
    · simp [h1]
    · simp [h2, h3]
    · simp [s3, h1, Payload.msg, m, Wire.enc]
  refine RunTo.head e3 (RunTo.head (a := .deliver ch sd.length) ?_ (RunTo.refl _))
  refine deliver_some.2 ⟨.cells ls, m, some ls', ?_, ?_, ?_⟩
  · simp [s3]
  · simp [s3, h2, h3]
  · simp [s3, h2, h3, putMsg, overflow, fits, m, Wire.dec, hls]

theorem ChOK.push {sd : List (Snd Loc (List (Val σ β)))} {rc : List (Rcv Loc (List (Val σ β)))} {p m ls} (h1 : ∀ e ∈ sd, e.data.isSome)
    (h2 : ∀ e ∈ rc, e.got.isSome) (h3 : sd.length = rc.length) : ChOK (sd ++ [⟨p, some m⟩]) (rc ++ [⟨ls, some m⟩]) .idle := by
  refine ⟨?_, ?_, by simp [h3]⟩
  · intro e he
    rcases List.mem_append.1 he with he | he
    · exact h1 e he
    · rw [List.mem_singleton.1 he]; rfl
  · intro e he
    rcases List.mem_append.1 he with he | he
    · exact h2 e he
    · rw [List.mem_singleton.1 he]; rfl

/-- a message to a receive which was posted before -/
theorem op_send (hG : G T s lk) {r q : Nat} (hrq : r ≠ q) {ls ls' : List Loc} {k : P σ β} (hp : (s.ranks r).proc = .isend q tag (hs q) (.cells ls) k)
    (hl : lk ⟨r, q, tag⟩ = .posted ls') (hq : q ∈ T.dst r) (ho : ∀ l ∈ ls, owner l = some (hs q)) (hlen : ls.length ≤ ls'.length) :
    ∃ t, RunTo eager s t ∧ G T t (Function.update lk ⟨r, q, tag⟩ .idle) ∧ (t.ranks r).proc = k ∧ (t.ranks r).mem = (s.ranks r).mem ∧
      t.ranks q = { s.ranks q with mem := store ls' (ls.map (s.ranks r).mem) (s.ranks q).mem } ∧
      (∀ z, z ≠ r → z ≠ q → t.ranks z = s.ranks z) ∧ ∀ h, h ≠ hs q → Free s r h → Free t r h := by
  set ch : Ch := ⟨r, q, tag⟩ with hch
  have hc := hG.ch ch
  rw [hl] at hc
  obtain ⟨rc, c1, c2, c3, c4⟩ := hc
  let s1 : SS σ β := { s with
    ranks := Function.update s.ranks r
      { s.ranks r with proc := k, reqs := ⟨hs q, true, ch, (s.sends ch).length, ls⟩ :: (s.ranks r).reqs }
    sends := Function.update s.sends ch (s.sends ch ++ [⟨.cells ls, none⟩]) }
  have e1 : next eager s (.loc r) = some s1 := by
    show locStep r s = _
    unfold locStep
    simp only [hp, Payload.ls]
    rw [hG.read_acc ho, Bool.or_false]
  have e2 := op_copy (eager := eager) (s := s1) (ch := ch) (ls := ls) (ls' := ls') (sd := s.sends ch) (rc := rc)
    (by simp [s1]) c1 c4 hlen
  have hr1 : (s1.ranks r).mem = (s.ranks r).mem := by simp [s1]
  have hq1 : s1.ranks q = s.ranks q := by simp [s1, hrq.symm]
  refine ⟨_, RunTo.head e1 e2, ⟨hG.err, fun c => ?_, fun r' x hx => ?_⟩, ?_, ?_, ?_, ?_, fun h hh hfr x hx => ?_⟩
  · by_cases hcc : c = ch
    · subst hcc
      simp only [Function.update_self]
      exact ChOK.push c2 c3 c4
    · have := hG.ch c
      simpa [s1, Function.update_of_ne hcc] using this
  · have hmono1 : ∀ c, (s.sends c).length ≤ (Function.update s1.sends ch (s.sends ch ++ [⟨.cells ls, some (ls.map (s1.ranks ch.src).mem)⟩]) c).length := by
      intro c
      by_cases hcc : c = ch
      · subst hcc; simp
      · simp [s1, Function.update_of_ne hcc]
    have hmono2 : ∀ c, (s.recvs c).length ≤ (Function.update s1.recvs ch (rc ++ [⟨some ls', some (ls.map (s1.ranks ch.src).mem)⟩]) c).length := by
      intro c
      by_cases hcc : c = ch
      · subst hcc; simp [c1]
      · simp [s1, Function.update_of_ne hcc]
    have hx' : x ∈ (s1.ranks r').reqs := by
      by_cases hq' : r' = q
      · subst hq'
        simpa [ch] using hx
      · simpa [ch, Function.update_of_ne hq'] using hx
    by_cases h : r' = r
    · subst h
      simp only [s1, Function.update_self, List.mem_cons] at hx'
      rcases hx' with rfl | hx'
      · refine ⟨ho, fun _ => ⟨rfl, rfl, rfl, hq, ?_⟩, fun e => by cases e⟩
        simp [ch]
      · exact (hG.reqs r' x hx').mono hmono1 hmono2
    · simp only [s1, Function.update_of_ne h] at hx'
      exact (hG.reqs r' x hx').mono hmono1 hmono2
  · simp [ch, hrq, s1]
  · simp [ch, hrq, s1]
  · simp [ch, s1, hrq.symm]
  · intro z hz hz'
    simp [ch, s1, hz, hz']
  · have : x ∈ (s1.ranks r).reqs := by simpa [ch, hrq] using hx
    simp only [s1, Function.update_self, List.mem_cons] at this
    rcases this with rfl | hx
    · exact fun e => hh e.symm
    · exact hfr x hx

/-- a receive for a message which was sent before -/
theorem op_recv (hG : G T s lk) {r q : Nat} (hrq : r ≠ q) {ls ls' : List Loc} {k : P σ β} (hp : (s.ranks r).proc = .irecv q tag (hr q) ls' k)
    (hl : lk ⟨q, r, tag⟩ = .half ls) (hq : q ∈ T.src r) (ho : ∀ l ∈ ls', owner l = some (hr q)) (hf : Free s r (hr q))
    (hlen : ls.length ≤ ls'.length) :
    ∃ t, RunTo eager s t ∧ G T t (Function.update lk ⟨q, r, tag⟩ .idle) ∧ (t.ranks r).proc = k ∧
      (t.ranks r).mem = store ls' (ls.map (s.ranks q).mem) (s.ranks r).mem ∧
      (∀ z, z ≠ r → t.ranks z = s.ranks z) ∧ ∀ h, h ≠ hr q → Free s r h → Free t r h := by
  set ch : Ch := ⟨q, r, tag⟩ with hch
  have hc := hG.ch ch
  rw [hl] at hc
  obtain ⟨sd, c1, c2, c3, c4⟩ := hc
  let s1 : SS σ β := { s with
    ranks := Function.update s.ranks r
      { s.ranks r with proc := k, reqs := ⟨hr q, false, ch, (s.recvs ch).length, ls'⟩ :: (s.ranks r).reqs }
    recvs := Function.update s.recvs ch (s.recvs ch ++ [⟨some ls', none⟩]) }
  have e1 : next eager s (.loc r) = some s1 := by
    show locStep r s = _
    unfold locStep
    simp only [hp]
    rw [hG.idle_mem (ls := ls') (fun l hl w hw => by rw [ho l hl] at hw; cases hw; exact hf), Bool.or_false]
  have e2 := op_copy (eager := eager) (s := s1) (ch := ch) (ls := ls) (ls' := ls') (sd := sd) (rc := s.recvs ch)
    c1 (by simp [s1]) c4 hlen
  have hr1 : (s1.ranks r).mem = (s.ranks r).mem := by simp [s1]
  have hq1 : s1.ranks q = s.ranks q := by simp [s1, hrq.symm]
  refine ⟨_, RunTo.head e1 e2, ⟨hG.err, fun c => ?_, fun r' x hx => ?_⟩, ?_, ?_, ?_, fun h hh hfr x hx => ?_⟩
  · by_cases hcc : c = ch
    · subst hcc
      simp only [Function.update_self]
      exact ChOK.push c2 c3 c4
    · have := hG.ch c
      simpa [s1, Function.update_of_ne hcc] using this
  · have hmono1 : ∀ c, (s.sends c).length ≤ (Function.update s1.sends ch (sd ++ [⟨.cells ls, some (ls.map (s1.ranks ch.src).mem)⟩]) c).length := by
      intro c
      by_cases hcc : c = ch
      · subst hcc; simp [c1]
      · simp [s1, Function.update_of_ne hcc]
    have hmono2 : ∀ c, (s.recvs c).length ≤ (Function.update s1.recvs ch (s.recvs ch ++ [⟨some ls', some (ls.map (s1.ranks ch.src).mem)⟩]) c).length := by
      intro c
      by_cases hcc : c = ch
      · subst hcc; simp
      · simp [s1, Function.update_of_ne hcc]
    have hx' : x ∈ (s1.ranks r').reqs := by
      by_cases hq' : r' = r
      · subst hq'
        simpa [ch] using hx
      · simpa [ch, Function.update_of_ne hq'] using hx
    by_cases h : r' = r
    · subst h
      simp only [s1, Function.update_self, List.mem_cons] at hx'
      rcases hx' with rfl | hx'
      · refine ⟨ho, fun e => by (cases e), fun _ => ⟨rfl, rfl, rfl, hq, ?_⟩⟩
        simp [ch]
      · exact (hG.reqs r' x hx').mono hmono1 hmono2
    · simp only [s1, Function.update_of_ne h] at hx'
      exact (hG.reqs r' x hx').mono hmono1 hmono2
  · simp [ch, s1]
  · simp [ch, s1, hrq.symm]
  · intro z hz
    simp [ch, s1, hz]
  · have : x ∈ (s1.ranks r).reqs := by simpa [ch] using hx
    simp only [s1, Function.update_self, List.mem_cons] at this
    rcases this with rfl | hx
    · exact fun e => hh e.symm
    · exact hfr x hx

end LGD.LinkProg
