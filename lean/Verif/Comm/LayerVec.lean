import Verif.Comm.Exchange
import Verif.Comm.GatherModel
import Verif.Comm.Cw

/-!
# `MPILayer::sendVec` and `MPILayer::recvVec` on the wire

`communication/mpilayer.h:217-254`. Memory is a function of addresses; a vector is a list of these.
-/

namespace LGD.Layer
open LGD.Mpi

variable {α : Type}

abbrev VP (α : Type) := Proc Nat α (Gather.Msg α) Unit

/-- `sendVec(vec, dest, waitTag)` for a list of vectors and wait tags, one after the other, by a layer with the given tag (mpilayer.h:217-235) -/
def sendVecs (dst tag : Nat) : List (Nat × List Nat) → VP α → VP α
  | [], k => k
  | (waitTag, vec) :: l, k => .isend dst tag waitTag (.cells vec) (sendVecs dst tag l k)

/-- `recvVec(vec, src, waitTag)` likewise (mpilayer.h:237-254) -/
def recvVecs (src tag : Nat) : List (Nat × List Nat) → VP α → VP α
  | [], k => k
  | (waitTag, vec) :: l, k => .irecv src tag waitTag vec (recvVecs src tag l k)

/-- `wait(waitTag)` for a list of tags (mpilayer.h:157-168) -/
def waits : List Nat → VP α → VP α
  | [], k => k
  | h :: l, k => .wait h (waits l k)

/-- rank 0 sends vectors to rank 1; both wait for all of them -/
def pairP (tag : Nat) (S R : List (Nat × List Nat)) (r : Nat) : VP α :=
  if r = 0 then sendVecs 1 tag S (waits (S.map Prod.fst) .done)
  else if r = 1 then recvVecs 0 tag R (waits (R.map Prod.fst) .done)
  else .done

theorem run_waits {eager : Ch → Nat → Bool} (r : Nat) (k : VP α) : ∀ (hs : List Nat) {s : St Nat α (Gather.Msg α) Unit}, Quiet s →
    (s.ranks r).proc = waits hs k → ∃ t, RunTo eager s t ∧ Quiet t ∧ (t.ranks r).proc = k ∧ (t.ranks r).mem = (s.ranks r).mem ∧
      (∀ q ∈ (t.ranks r).reqs, q ∈ (s.ranks r).reqs ∧ q.h ∉ hs) ∧ ∀ r', r' ≠ r → t.ranks r' = s.ranks r' := by
  intro hs
  induction hs with
  | nil => intro s q hp; exact ⟨s, RunTo.refl _, q, hp, rfl, fun _ h => ⟨h, by simp⟩, fun _ _ => rfl⟩
  | cons h hs ih =>
    intro s q hp
    have h1 := run_wait (eager := eager) q (r := r) (w := h) (k := waits hs k) hp
    have q1 : Quiet (s.setRank r { s.ranks r with proc := waits hs k, reqs := (s.ranks r).reqs.filter fun q => q.h != h }) :=
      q.setRank fun x hx => (List.mem_filter.1 hx).1
    obtain ⟨t, t1, t2, t3, t4, t5, t6⟩ := ih q1 (by simp [St.setRank])
    refine ⟨t, h1.trans t1, t2, t3, ?_, fun x hx => ?_, fun r' hr => ?_⟩
    · rw [t4]; simp [St.setRank]
    · obtain ⟨a, b⟩ := t5 x hx
      simp only [St.setRank, Function.update_self, List.mem_filter, bne_iff_ne, ne_eq] at a
      exact ⟨a.1, by simp [a.2, b]⟩
    · rw [t6 r' hr]; simp [St.setRank, Function.update_of_ne hr]

theorem store_self : ∀ {ls : List Nat} (_ : ls.Nodup) {vs : List α} {mem : Nat → α}, vs.length = ls.length → ls.map (store ls vs mem) = vs := by
  intro ls
  induction ls with
  | nil => intro _ vs mem h; simp at h; simp [h]
  | cons l ls ih =>
    intro hn vs mem h
    rw [List.nodup_cons] at hn
    obtain ⟨v, vs, rfl⟩ : ∃ v vs', vs = v :: vs' := by
      cases vs with
      | nil => simp at h
      | cons v vs => exact ⟨v, vs, rfl⟩
    rw [List.map_cons, store, ih hn.2 (by simpa using h), store_of_not_mem hn.1, Function.update_self]

/-- buffers to be received to: no element twice -/
def Apart (R : List (Nat × List Nat)) : Prop := (R.flatMap Prod.snd).Nodup

theorem run_vecs {eager : Ch → Nat → Bool} (tag : Nat) (kx ky : VP α) : ∀ (S R : List (Nat × List Nat)) {s : St Nat α (Gather.Msg α) Unit}, Quiet s →
    S.map (List.length ∘ Prod.snd) = R.map (List.length ∘ Prod.snd) → Apart R →
    (s.ranks 0).proc = sendVecs 1 tag S kx → (s.ranks 1).proc = recvVecs 0 tag R ky →
    (∀ q ∈ (s.ranks 0).reqs, q.snd = true) → (∀ q ∈ (s.ranks 1).reqs, ∀ b ∈ R, overlap b.2 q.ls = false) →
    ∃ t, RunTo eager s t ∧ Quiet t ∧ (t.ranks 0).proc = kx ∧ (t.ranks 1).proc = ky ∧ (t.ranks 0).mem = (s.ranks 0).mem ∧
      (R.map fun b => b.2.map (t.ranks 1).mem) = (S.map fun b => b.2.map (s.ranks 0).mem) ∧
      (∀ l, l ∉ R.flatMap Prod.snd → (t.ranks 1).mem l = (s.ranks 1).mem l) ∧
      (∀ q ∈ (t.ranks 0).reqs, q ∈ (s.ranks 0).reqs ∨ q.h ∈ S.map Prod.fst) ∧
      (∀ q ∈ (t.ranks 1).reqs, q ∈ (s.ranks 1).reqs ∨ q.h ∈ R.map Prod.fst) ∧ ∀ r, r ≠ 0 → r ≠ 1 → t.ranks r = s.ranks r := by
  intro S
  induction S with
  | nil =>
    intro R s q hl _ h0 h1 _ _
    cases R with
    | cons => simp at hl
    | nil => exact ⟨s, RunTo.refl _, q, h0, h1, rfl, rfl, fun _ _ => rfl, fun _ h => .inl h, fun _ h => .inl h, fun _ _ _ => rfl⟩
  | cons a S ih =>
    intro R s q hl ha h0 h1 hs hr
    cases R with
    | nil => simp at hl
    | cons b R =>
      simp only [List.map_cons, List.cons.injEq, Function.comp] at hl
      obtain ⟨a1, a2⟩ := a
      obtain ⟨b1, b2⟩ := b
      simp only at hl
      unfold Apart at ha
      rw [List.flatMap_cons, List.nodup_append] at ha
      obtain ⟨n1, n2, n3⟩ := ha
      obtain ⟨t, i, j, r1, r2, r3, r4, r5⟩ := run_cells (eager := eager) q (x := 0) (y := 1) (by decide) (tag := tag) (w := a1) (w' := b1) (ls := a2) (ls' := b2) h0 h1
        (by
          unfold busyRead
          rw [List.any_eq_false]
          intro x hx
          simp [hs x hx])
        (by
          unfold busyWrite
          rw [List.any_eq_false]
          intro x hx
          simp [hr x hx (b1, b2) (by simp)]) (by omega)
      have e0 : (t.ranks 0).mem = (s.ranks 0).mem := by rw [r3]
      have e1 : (t.ranks 1).mem = store b2 (a2.map (s.ranks 0).mem) (s.ranks 1).mem := by rw [r4]
      obtain ⟨u, u1, u2, u3, u4, u5, u6, u7, u8, u9, u10⟩ := ih R r2 hl.2 n2 (by rw [r3]) (by rw [r4])
        (by
          intro x hx
          rw [r3] at hx
          rcases List.mem_cons.1 hx with rfl | hx
          · rfl
          · exact hs x hx)
        (by
          intro x hx c hc
          rw [r4] at hx
          rcases List.mem_cons.1 hx with rfl | hx
          · rw [overlap_false]
            intro l hlc hlb
            exact n3 l hlb l (List.mem_flatMap.2 ⟨c, hc, hlc⟩) rfl
          · exact hr x hx c (List.mem_cons_of_mem _ hc))
      refine ⟨u, r1.trans u1, u2, u3, u4, u5.trans e0, ?_, fun l hl' => ?_, fun x hx => ?_, fun x hx => ?_, fun r hr0 hr1 => ?_⟩
      · rw [List.map_cons, List.map_cons, u6, e0]
        congr 1
        have : b2.map (u.ranks 1).mem = b2.map (t.ranks 1).mem := by
          refine List.map_congr_left fun l hlb => u7 l fun hlR => n3 l hlb l hlR rfl
        simp only
        rw [this, e1, store_self n1 (by simp [hl.1])]
      · rw [List.flatMap_cons, List.mem_append, not_or] at hl'
        rw [u7 l hl'.2, e1, store_of_not_mem hl'.1]
      · rcases u8 x hx with hx | hx
        · rw [r3] at hx
          rcases List.mem_cons.1 hx with rfl | hx
          · exact .inr (by simp)
          · exact .inl hx
        · exact .inr (by rw [List.map_cons]; exact List.mem_cons_of_mem _ hx)
      · rcases u9 x hx with hx | hx
        · rw [r4] at hx
          rcases List.mem_cons.1 hx with rfl | hx
          · exact .inr (by simp)
          · exact .inl hx
        · exact .inr (by rw [List.map_cons]; exact List.mem_cons_of_mem _ hx)
      · rw [u10 r hr0 hr1, r5 r hr0 hr1]

end LGD.Layer
