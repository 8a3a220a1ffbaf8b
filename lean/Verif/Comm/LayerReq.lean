import Verif.Comm.LayerModel
import Mathlib.Data.List.Basic

/-! # Requests of `MPILayer`: invariant of all histories -/

namespace LGD.Layer

/-- request `q` was posted by object `o`, and filed under `key` -/
def Posted (w : World) (o : Nat) (key : Int) (q : Nat) : Prop := ∃ wire, Ev.post o wire key q ∈ w.log

/-- request `q` was completed and freed -/
def Freed (w : World) (q : Nat) : Prop := Ev.free q ∈ w.log

def Ev.freeId : Ev → Option Nat
  | .free q => some q
  | .post .. => none

/-- requests in the order they were freed -/
def World.frees (w : World) : List Nat := w.log.filterMap Ev.freeId

structure Inv (w : World) : Prop where
  live_lt : ∀ q ∈ w.live, q < w.next
  nodup : w.live.Nodup
  home : ∀ o L t q, w.objs o = some L → some q ∈ L.vec t → q ∈ w.live
  once : ∀ o L t, w.objs o = some L → ((L.vec t).filterMap id).Nodup
  uniq : ∀ o L t o' L' t' q, w.objs o = some L → w.objs o' = some L' → some q ∈ L.vec t → some q ∈ L'.vec t' → o = o' ∧ t = t'
  key : ∀ o L t, w.objs o = some L → t ∉ L.keys → L.vec t = []
  posted : ∀ o t q, Posted w o t q → q < w.next ∧ (q ∈ w.live → ∃ L, w.objs o = some L ∧ some q ∈ L.vec t)
  owner : ∀ o L t q, w.objs o = some L → some q ∈ L.vec t → Posted w o t q
  freed : ∀ q, Freed w q ↔ q < w.next ∧ q ∉ w.live
  frees : w.frees.Nodup
  all : ∀ q, q < w.next → ∃ o t, Posted w o t q

theorem mem_ids {hs : List Handle} {q : Nat} : q ∈ hs.filterMap id ↔ some q ∈ hs := by
  simp

theorem inv_empty : Inv World.empty := by
  constructor <;> simp [World.empty, Posted, Freed, World.frees]

@[simp] theorem put_vec (L : Obj) (k : Int) (v : List Handle) : (L.put k v).vec = Function.update L.vec k v := rfl
@[simp] theorem put_tag (L : Obj) (k : Int) (v : List Handle) : (L.put k v).tag = L.tag := rfl
@[simp] theorem touch_vec (L : Obj) (k : Int) : (L.touch k).vec = L.vec := rfl

theorem mem_touch_keys (L : Obj) (k t : Int) : t ∈ (L.touch k).keys ↔ t ∈ L.keys ∨ t = k := by
  unfold Obj.touch
  by_cases h : k ∈ L.keys
  · simp only [h, if_true]
    exact ⟨Or.inl, fun a => a.elim id (fun e => e ▸ h)⟩
  · simp [h]

theorem mem_put_keys (L : Obj) (k t : Int) (v : List Handle) : t ∈ (L.put k v).keys ↔ t ∈ L.keys ∨ t = k := mem_touch_keys L k t

theorem frees_append (w : World) (qs : List Nat) :
    (w.log ++ qs.map Ev.free).filterMap Ev.freeId = w.frees ++ qs := by
  rw [List.filterMap_append, World.frees]
  congr 1
  rw [List.filterMap_map]
  have : (Ev.freeId ∘ Ev.free) = (some : Nat → Option Nat) := rfl
  rw [this, List.filterMap_some]

theorem mem_frees (w : World) (q : Nat) : q ∈ w.frees ↔ Freed w q := by
  unfold World.frees Freed
  rw [List.mem_filterMap]
  constructor
  · rintro ⟨e, he, hq⟩
    cases e with
    | post => simp [Ev.freeId] at hq
    | free q' => simp only [Ev.freeId, Option.some.injEq] at hq; exact hq ▸ he
  · intro h; exact ⟨_, h, rfl⟩

/-- from `w` to `w'` exactly the requests which satisfy `gone` were completed -/
structure Gone (w w' : World) (gone : Nat → Prop) : Prop where
  next : w'.next = w.next
  posts : ∀ o t q, Posted w' o t q ↔ Posted w o t q
  live : ∀ q, q ∈ w'.live ↔ q ∈ w.live ∧ ¬ gone q

/-- the state after the requests filed under `key` were completed -/
def cleared (w : World) (o : Nat) (L : Obj) (key : Int) (v : List Handle) : World :=
  World.set { w with live := w.live.filter fun q => q ∉ (L.vec key).filterMap id, log := w.log ++ ((L.vec key).filterMap id).map Ev.free } o (L.put key v)

theorem free_eq {w : World} (hi : Inv w) {o : Nat} {L : Obj} (hL : w.objs o = some L) (key : Int) (v : List Handle) :
    ((w.free (L.vec key)).bind fun w' => .ok (w'.set o (L.put key v))) = .ok (cleared w o L key v) := by
  unfold World.free
  simp only
  rw [if_pos ⟨hi.once o L key hL, fun q hq => hi.home o L key q hL (mem_ids.1 hq)⟩]
  rfl

theorem gone_cleared (w : World) (o : Nat) (L : Obj) (key : Int) (v : List Handle) :
    Gone w (cleared w o L key v) fun q => some q ∈ L.vec key := by
  refine ⟨rfl, fun o' t q => ?_, fun q => ?_⟩
  · simp [Posted, cleared, World.set]
  · simp [cleared, World.set]

theorem inv_cleared {w : World} (hi : Inv w) {o : Nat} {L : Obj} (hL : w.objs o = some L) (key : Int) (v : List Handle)
    (hv : ∀ q, some q ∉ v) : Inv (cleared w o L key v) := by
  have hg := gone_cleared w o L key v
  have hobj : ∀ o' L', (cleared w o L key v).objs o' = some L' →
      ∃ L₀, w.objs o' = some L₀ ∧ ((o' = o ∧ L' = L.put key v ∧ L₀ = L) ∨ (o' ≠ o ∧ L' = L₀)) := by
    intro o' L' h
    by_cases e : o' = o
    · subst e
      simp only [cleared, World.set, Function.update_self, Option.some.injEq] at h
      exact ⟨L, hL, .inl ⟨rfl, h.symm, rfl⟩⟩
    · simp only [cleared, World.set, Function.update_of_ne e] at h
      exact ⟨L', h, .inr ⟨e, rfl⟩⟩
  have hmem : ∀ o' L' t q, (cleared w o L key v).objs o' = some L' → some q ∈ L'.vec t →
      ∃ L₀, w.objs o' = some L₀ ∧ some q ∈ L₀.vec t ∧ ¬ (o' = o ∧ t = key) := by
    intro o' L' t q h hq
    obtain ⟨L₀, h0, ⟨rfl, rfl, rfl⟩ | ⟨hne, rfl⟩⟩ := hobj o' L' h
    · by_cases e : t = key
      · subst e; simp at hq; exact absurd hq (hv q)
      · rw [put_vec, Function.update_of_ne e] at hq
        exact ⟨_, h0, hq, fun h => e h.2⟩
    · exact ⟨_, h0, hq, fun h => hne h.1⟩
  refine ⟨?_, ?_, ?_, ?_, ?_, ?_, ?_, ?_, ?_, ?_, ?_⟩
  · intro q hq; exact hi.live_lt q ((hg.live q).1 hq).1
  · exact hi.nodup.filter _
  · intro o' L' t q h hq
    obtain ⟨L₀, h0, hq0, hne⟩ := hmem o' L' t q h hq
    exact (hg.live q).2 ⟨hi.home _ _ _ _ h0 hq0, fun hk => hne (hi.uniq _ _ _ _ _ _ _ h0 hL hq0 hk)⟩
  · intro o' L' t h
    obtain ⟨L₀, h0, ⟨rfl, rfl, rfl⟩ | ⟨hne, rfl⟩⟩ := hobj o' L' h
    · by_cases e : t = key
      · subst e
        have : v.filterMap id = [] := by
          apply List.eq_nil_iff_forall_not_mem.2
          intro q hq; exact hv q (mem_ids.1 hq)
        rw [put_vec, Function.update_self, this]
        exact List.nodup_nil
      · rw [put_vec, Function.update_of_ne e]; exact hi.once _ _ _ h0
    · exact hi.once _ _ _ h0
  · intro o' L' t o'' L'' t' q h h' hq hq'
    obtain ⟨L₀, h0, hq0, _⟩ := hmem o' L' t q h hq
    obtain ⟨L₁, h1, hq1, _⟩ := hmem o'' L'' t' q h' hq'
    exact hi.uniq _ _ _ _ _ _ _ h0 h1 hq0 hq1
  · intro o' L' t h ht
    obtain ⟨L₀, h0, ⟨rfl, rfl, rfl⟩ | ⟨hne, rfl⟩⟩ := hobj o' L' h
    · rw [mem_put_keys, not_or] at ht
      rw [put_vec, Function.update_of_ne ht.2]
      exact hi.key _ _ _ h0 ht.1
    · exact hi.key _ _ _ h0 ht
  · intro o' t q hp
    rw [hg.posts] at hp
    obtain ⟨h1, h2⟩ := hi.posted o' t q hp
    refine ⟨h1, fun hq => ?_⟩
    obtain ⟨hq1, hq2⟩ := (hg.live q).1 hq
    obtain ⟨L', h', hm⟩ := h2 hq1
    by_cases e : o' = o
    · subst e
      rw [hL, Option.some.injEq] at h'
      subst h'
      refine ⟨L.put key v, by simp [cleared, World.set], ?_⟩
      have : t ≠ key := fun e => hq2 (e ▸ hm)
      rw [put_vec, Function.update_of_ne this]; exact hm
    · exact ⟨L', by simp [cleared, World.set, Function.update_of_ne e, h'], hm⟩
  · intro o' L' t q h hq
    obtain ⟨L₀, h0, hq0, _⟩ := hmem o' L' t q h hq
    exact (hg.posts _ _ _).2 (hi.owner _ _ _ _ h0 hq0)
  · intro q
    have h1 : Freed (cleared w o L key v) q ↔ Freed w q ∨ some q ∈ L.vec key := by
      simp [Freed, cleared, World.set]
    have h3 : some q ∈ L.vec key → q < w.next := fun h => hi.live_lt q (hi.home _ _ _ _ hL h)
    rw [h1, hi.freed, hg.live, hg.next]
    constructor
    · rintro (⟨a, b⟩ | h)
      · exact ⟨a, fun c => b c.1⟩
      · exact ⟨h3 h, fun c => c.2 h⟩
    · rintro ⟨a, b⟩
      by_cases h : some q ∈ L.vec key
      · exact .inr h
      · exact .inl ⟨a, fun c => b ⟨c, h⟩⟩
  · show ((w.log ++ ((L.vec key).filterMap id).map Ev.free).filterMap Ev.freeId).Nodup
    rw [frees_append, List.nodup_append]
    refine ⟨hi.frees, hi.once _ _ _ hL, ?_⟩
    rintro a ha b hb rfl
    rw [mem_frees, hi.freed] at ha
    exact ha.2 (hi.home _ _ _ _ hL (mem_ids.1 hb))
  · intro q hq
    obtain ⟨o', t, hp⟩ := hi.all q hq
    exact ⟨o', t, (hg.posts _ _ _).2 hp⟩

theorem Gone.freed {w w' : World} {gone : Nat → Prop} (h : Gone w w' gone) (hi : Inv w) (hi' : Inv w') (hg : ∀ q, gone q → q < w.next) (q : Nat) :
    Freed w' q ↔ Freed w q ∨ gone q := by
  rw [hi'.freed, hi.freed, h.live, h.next]
  constructor
  · rintro ⟨a, b⟩
    by_cases hq : gone q
    · exact .inr hq
    · exact .inl ⟨a, fun c => b ⟨c, hq⟩⟩
  · rintro (⟨a, b⟩ | hq)
    · exact ⟨a, fun c => b c.1⟩
    · exact ⟨hg q hq, fun c => c.2 hq⟩

/-- an object gets new keys, or goes away with no requests, or comes without any -/
theorem inv_objs {w : World} (hi : Inv w) (objs : Nat → Option Obj)
    (h1 : ∀ o L, objs o = some L → (∃ L₀, w.objs o = some L₀ ∧ L.vec = L₀.vec ∧ ∀ k ∈ L₀.keys, k ∈ L.keys) ∨ ∀ k, L.vec k = [])
    (h2 : ∀ o L₀ t q, w.objs o = some L₀ → some q ∈ L₀.vec t → ∃ L, objs o = some L ∧ some q ∈ L.vec t) :
    Inv { w with objs := objs } := by
  have hm : ∀ o L t q, objs o = some L → some q ∈ L.vec t → ∃ L₀, w.objs o = some L₀ ∧ some q ∈ L₀.vec t := by
    intro o L t q h hq
    obtain ⟨L₀, a, b, _⟩ | b := h1 o L h
    · exact ⟨L₀, a, b ▸ hq⟩
    · rw [b t] at hq; simp at hq
  refine ⟨hi.live_lt, hi.nodup, ?_, ?_, ?_, ?_, ?_, ?_, hi.freed, hi.frees, hi.all⟩
  · intro o L t q h hq
    obtain ⟨L₀, a, b⟩ := hm o L t q h hq
    exact hi.home _ _ _ _ a b
  · intro o L t h
    obtain ⟨L₀, a, b, _⟩ | b := h1 o L h
    · rw [b]; exact hi.once _ _ _ a
    · rw [b t]; simp
  · intro o L t o' L' t' q h h' hq hq'
    obtain ⟨L₀, a, b⟩ := hm o L t q h hq
    obtain ⟨L₁, c, d⟩ := hm o' L' t' q h' hq'
    exact hi.uniq _ _ _ _ _ _ _ a c b d
  · intro o L t h ht
    obtain ⟨L₀, a, b, c⟩ | b := h1 o L h
    · rw [b]; exact hi.key _ _ _ a fun h => ht (c t h)
    · exact b t
  · intro o t q hp
    obtain ⟨a, b⟩ := hi.posted o t q hp
    refine ⟨a, fun hq => ?_⟩
    obtain ⟨L, c, d⟩ := b hq
    exact h2 _ _ _ _ c d
  · intro o L t q h hq
    obtain ⟨L₀, a, b⟩ := hm o L t q h hq
    exact hi.owner _ _ _ _ a b

theorem post_spec {w : World} (hi : Inv w) {o : Nat} {L : Obj} (hL : w.objs o = some L) (wire key : Int) :
    ∃ w', post w o wire key = .ok w' ∧ Inv w' ∧ w'.objs = Function.update w.objs o (some (L.put key (L.vec key ++ [some w.next]))) ∧
      w'.next = w.next + 1 ∧ (∀ q, q ∈ w'.live ↔ q ∈ w.live ∨ q = w.next) ∧ w'.log = w.log ++ [.post o wire key w.next] := by
  have e : post w o wire key = .ok { w.set o (L.put key (L.vec key ++ [some w.next])) with next := w.next + 1, live := w.live ++ [w.next], log := w.log ++ [.post o wire key w.next] } := by
    simp [post, World.obj, hL, Except.bind]
  refine ⟨_, e, ?_, rfl, rfl, by simp, rfl⟩
  set w' : World := { w.set o (L.put key (L.vec key ++ [some w.next])) with next := w.next + 1, live := w.live ++ [w.next], log := w.log ++ [.post o wire key w.next] } with hw'
  have hn : w.next ∉ w.live := fun h => Nat.lt_irrefl _ (hi.live_lt _ h)
  have hlive : ∀ q, q ∈ w'.live ↔ q ∈ w.live ∨ q = w.next := by simp [hw']
  have hpost : ∀ o' t q, Posted w' o' t q ↔ Posted w o' t q ∨ (o' = o ∧ t = key ∧ q = w.next) := by
    intro o' t q
    simp only [Posted, hw', List.mem_append, List.mem_singleton, Ev.post.injEq]
    constructor
    · rintro ⟨wi, h | ⟨rfl, -, rfl, rfl⟩⟩
      · exact .inl ⟨wi, h⟩
      · exact .inr ⟨rfl, rfl, rfl⟩
    · rintro (⟨wi, h⟩ | ⟨rfl, rfl, rfl⟩)
      · exact ⟨wi, .inl h⟩
      · exact ⟨wire, .inr ⟨rfl, rfl, rfl, rfl⟩⟩
  have hobj : ∀ o' L', w'.objs o' = some L' →
      ∃ L₀, w.objs o' = some L₀ ∧ ((o' = o ∧ L' = L.put key (L.vec key ++ [some w.next]) ∧ L₀ = L) ∨ (o' ≠ o ∧ L' = L₀)) := by
    intro o' L' h
    by_cases e : o' = o
    · subst e
      simp only [hw', World.set, Function.update_self, Option.some.injEq] at h
      exact ⟨L, hL, .inl ⟨rfl, h.symm, rfl⟩⟩
    · simp only [hw', World.set, Function.update_of_ne e] at h
      exact ⟨L', h, .inr ⟨e, rfl⟩⟩
  have hmem : ∀ o' L' t q, w'.objs o' = some L' → some q ∈ L'.vec t →
      (∃ L₀, w.objs o' = some L₀ ∧ some q ∈ L₀.vec t) ∨ (o' = o ∧ t = key ∧ q = w.next) := by
    intro o' L' t q h hq
    obtain ⟨L₀, h0, ⟨rfl, rfl, rfl⟩ | ⟨hne, rfl⟩⟩ := hobj o' L' h
    · by_cases e : t = key
      · subst e
        simp only [put_vec, Function.update_self, List.mem_append, List.mem_singleton, Option.some.injEq] at hq
        rcases hq with hq | rfl
        · exact .inl ⟨_, h0, hq⟩
        · exact .inr ⟨rfl, rfl, rfl⟩
      · rw [put_vec, Function.update_of_ne e] at hq
        exact .inl ⟨_, h0, hq⟩
    · exact .inl ⟨_, h0, hq⟩
  have hnew : ∀ o' L' t, w.objs o' = some L' → some w.next ∉ L'.vec t := fun o' L' t h hq => hn (hi.home _ _ _ _ h hq)
  refine ⟨?_, ?_, ?_, ?_, ?_, ?_, ?_, ?_, ?_, ?_, ?_⟩
  · intro q hq
    show q < w.next + 1
    rcases (hlive q).1 hq with h | h
    · have := hi.live_lt q h; omega
    · omega
  · show (w.live ++ [w.next]).Nodup
    rw [List.nodup_append]
    exact ⟨hi.nodup, by simp, by rintro a ha b hb rfl; rw [List.mem_singleton] at hb; exact hn (hb ▸ ha)⟩
  · intro o' L' t q h hq
    rw [hlive]
    obtain ⟨L₀, a, b⟩ | ⟨-, -, h⟩ := hmem o' L' t q h hq
    · exact .inl (hi.home _ _ _ _ a b)
    · exact .inr h
  · intro o' L' t h
    obtain ⟨L₀, h0, ⟨rfl, rfl, rfl⟩ | ⟨hne, rfl⟩⟩ := hobj o' L' h
    · by_cases e : t = key
      · subst e
        rw [put_vec, Function.update_self, List.filterMap_append, List.nodup_append]
        refine ⟨hi.once _ _ _ h0, by simp, ?_⟩
        rintro a ha b hb rfl
        rw [mem_ids] at ha
        simp only [List.filterMap_cons, id, List.filterMap_nil, List.mem_singleton] at hb
        exact hnew _ _ _ h0 (hb ▸ ha)
      · rw [put_vec, Function.update_of_ne e]; exact hi.once _ _ _ h0
    · exact hi.once _ _ _ h0
  · intro o' L' t o'' L'' t' q h h' hq hq'
    obtain ⟨L₀, a, b⟩ | ⟨rfl, rfl, rfl⟩ := hmem o' L' t q h hq
    · obtain ⟨L₁, c, d⟩ | ⟨rfl, rfl, rfl⟩ := hmem o'' L'' t' q h' hq'
      · exact hi.uniq _ _ _ _ _ _ _ a c b d
      · exact absurd b (hnew _ _ _ a)
    · obtain ⟨L₁, c, d⟩ | ⟨rfl, rfl, -⟩ := hmem o'' L'' t' _ h' hq'
      · exact absurd d (hnew _ _ _ c)
      · exact ⟨rfl, rfl⟩
  · intro o' L' t h ht
    obtain ⟨L₀, h0, ⟨rfl, rfl, rfl⟩ | ⟨hne, rfl⟩⟩ := hobj o' L' h
    · rw [mem_put_keys, not_or] at ht
      rw [put_vec, Function.update_of_ne ht.2]
      exact hi.key _ _ _ h0 ht.1
    · exact hi.key _ _ _ h0 ht
  · intro o' t q hp
    rcases (hpost o' t q).1 hp with hp | ⟨rfl, rfl, rfl⟩
    · obtain ⟨h1, h2⟩ := hi.posted o' t q hp
      refine ⟨Nat.lt_succ_of_lt h1, fun hq => ?_⟩
      rcases (hlive q).1 hq with hq | hq
      · obtain ⟨L', h', hm⟩ := h2 hq
        by_cases e : o' = o
        · subst e
          rw [hL, Option.some.injEq] at h'
          subst h'
          refine ⟨L.put key (L.vec key ++ [some w.next]), by simp [hw', World.set], ?_⟩
          by_cases e : t = key
          · subst e; simp [hm]
          · rw [put_vec, Function.update_of_ne e]; exact hm
        · exact ⟨L', by simp [hw', World.set, Function.update_of_ne e, h'], hm⟩
      · omega
    · exact ⟨Nat.lt_succ_self _, fun _ => ⟨L.put t (L.vec t ++ [some w.next]), by simp [hw', World.set], by simp⟩⟩
  · intro o' L' t q h hq
    rw [hpost]
    obtain ⟨L₀, a, b⟩ | h := hmem o' L' t q h hq
    · exact .inl (hi.owner _ _ _ _ a b)
    · exact .inr h
  · intro q
    have h1 : Freed w' q ↔ Freed w q := by simp [Freed, hw']
    rw [h1, hi.freed, hlive]
    show _ ↔ q < w.next + 1 ∧ _
    constructor
    · rintro ⟨a, b⟩
      exact ⟨by omega, fun c => c.elim b (by omega)⟩
    · rintro ⟨a, b⟩
      rw [not_or] at b
      exact ⟨by have := b.2; omega, b.1⟩
  · show ((w.log ++ [Ev.post o wire key w.next]).filterMap Ev.freeId).Nodup
    rw [List.filterMap_append]
    have : [Ev.post o wire key w.next].filterMap Ev.freeId = [] := rfl
    rw [this, List.append_nil]
    exact hi.frees
  · intro q hq
    have hq : q < w.next + 1 := hq
    by_cases e : q = w.next
    · exact ⟨o, key, (hpost _ _ _).2 (.inr ⟨rfl, rfl, e⟩)⟩
    · obtain ⟨o', t, hp⟩ := hi.all q (by omega)
      exact ⟨o', t, (hpost _ _ _).2 (.inl hp)⟩

theorem wait_spec {w : World} (hi : Inv w) {o : Nat} {L : Obj} (hL : w.objs o = some L) (key : Int) :
    wait w o key = .ok (cleared w o L key [], (L.vec key).length) := by
  have := free_eq hi hL key []
  unfold wait World.obj
  simp only [hL, Except.bind] at this ⊢
  cases h : w.free (L.vec key) with
  | error e => rw [h] at this; simp at this
  | ok w1 =>
    rw [h] at this
    simp only [Except.ok.injEq] at this ⊢
    rw [this]

theorem cleared_self (w : World) (o : Nat) (L : Obj) (key : Int) (v : List Handle) : (cleared w o L key v).objs o = some (L.put key v) := by
  simp [cleared, World.set]

theorem cleared_ne (w : World) (o : Nat) (L : Obj) (key : Int) (v : List Handle) {o' : Nat} (h : o' ≠ o) :
    (cleared w o L key v).objs o' = w.objs o' := by
  simp [cleared, World.set, Function.update_of_ne h]

theorem waitKeys_spec (o : Nat) : ∀ (ks : List Int) {w : World} (_ : Inv w) {L : Obj} (_ : w.objs o = some L),
    ∃ w', waitKeys o ks w = .ok w' ∧ Inv w' ∧ (∀ o', o' ≠ o → w'.objs o' = w.objs o') ∧
      (∃ L', w'.objs o = some L' ∧ L'.tag = L.tag ∧ ∀ k, L'.vec k = if k ∈ ks then [] else L.vec k) ∧
      Gone w w' fun q => ∃ k ∈ ks, some q ∈ L.vec k := by
  intro ks
  induction ks with
  | nil => intro w hi L hL; exact ⟨w, rfl, hi, fun _ _ => rfl, ⟨L, hL, rfl, by simp⟩, rfl, fun _ _ _ => Iff.rfl, by simp⟩
  | cons k ks ih =>
    intro w hi L hL
    obtain ⟨w', h1, h2, h3, ⟨L', h4, h5, h6⟩, h7⟩ := ih (inv_cleared hi hL k [] (by simp)) (cleared_self w o L k [])
    have hg := gone_cleared w o L k []
    refine ⟨w', ?_, h2, fun o' ho => ?_, ⟨L', h4, h5, fun k' => ?_⟩, h7.next.trans hg.next, fun o t q => (h7.posts o t q).trans (hg.posts o t q), fun q => ?_⟩
    · simp only [waitKeys, wait_spec hi hL, Except.bind]
      exact h1
    · rw [h3 o' ho, cleared_ne _ _ _ _ _ ho]
    · rw [h6 k']
      by_cases e : k' = k
      · subst e; simp
      · simp [e]
    · rw [h7.live, hg.live]
      simp only [put_vec, List.mem_cons, exists_eq_or_imp, not_or, and_assoc]
      refine and_congr_right fun a => and_congr_right fun b => not_congr ?_
      constructor
      · rintro ⟨k', hk, hq⟩
        by_cases e : k' = k
        · subst e; simp at hq
        · rw [Function.update_of_ne e] at hq; exact ⟨k', hk, hq⟩
      · rintro ⟨k', hk, hq⟩
        have e : k' ≠ k := fun e => b (e ▸ hq)
        exact ⟨k', hk, by rwa [Function.update_of_ne e]⟩

theorem waitAll_spec {w : World} (hi : Inv w) {o : Nat} {L : Obj} (hL : w.objs o = some L) :
    ∃ w', waitAll w o = .ok w' ∧ Inv w' ∧ (∀ o', o' ≠ o → w'.objs o' = w.objs o') ∧
      (∃ L', w'.objs o = some L' ∧ L'.tag = L.tag ∧ ∀ k, L'.vec k = []) ∧ Gone w w' fun q => ∃ k, some q ∈ L.vec k := by
  obtain ⟨w', h1, h2, h3, ⟨L', h4, h5, h6⟩, h7⟩ := waitKeys_spec o L.keys hi hL
  refine ⟨w', by simpa [waitAll, World.obj, hL, Except.bind] using h1, h2, h3, ⟨L', h4, h5, fun k => ?_⟩, h7.next, h7.posts, fun q => ?_⟩
  · rw [h6]
    split
    · rfl
    · rename_i hk; exact hi.key _ _ _ hL hk
  · rw [h7.live]
    refine and_congr_right fun _ => not_congr ⟨fun ⟨k, _, h⟩ => ⟨k, h⟩, fun ⟨k, h⟩ => ⟨k, ?_, h⟩⟩
    by_contra hk
    rw [hi.key _ _ _ hL hk] at h
    simp at h

theorem destroy_spec {w : World} (hi : Inv w) {o : Nat} {L : Obj} (hL : w.objs o = some L) :
    ∃ w', destroy w o = .ok w' ∧ Inv w' ∧ (∀ o', o' ≠ o → w'.objs o' = w.objs o') ∧ w'.objs o = none ∧ Gone w w' fun q => ∃ k, some q ∈ L.vec k := by
  obtain ⟨w', h1, h2, h3, ⟨L', h4, h5, h6⟩, h7⟩ := waitAll_spec hi hL
  refine ⟨{ w' with objs := Function.update w'.objs o none }, by simp [destroy, h1, Except.bind], inv_objs h2 _ ?_ ?_, fun o' ho => ?_, by simp, h7.next, h7.posts, h7.live⟩
  · intro o' L₁ h
    by_cases e : o' = o
    · subst e; simp at h
    · rw [Function.update_of_ne e] at h
      exact .inl ⟨L₁, h, rfl, fun _ => id⟩
  · intro o' L₀ t q h hq
    by_cases e : o' = o
    · subst e
      rw [h4, Option.some.injEq] at h
      subst h
      rw [h6] at hq; simp at hq
    · exact ⟨L₀, by rwa [Function.update_of_ne e], hq⟩
  · simp only [Function.update_of_ne ho]; exact h3 o' ho

theorem construct_spec {w : World} (hi : Inv w) {o : Nat} (h : w.objs o = none) (tag : Int) :
    ∃ w', construct w o tag = .ok w' ∧ Inv w' ∧ w'.objs = Function.update w.objs o (some ⟨tag, [], fun _ => []⟩) := by
  refine ⟨w.set o ⟨tag, [], fun _ => []⟩, by rw [construct, if_pos h], inv_objs hi (Function.update w.objs o (some ⟨tag, [], fun _ => []⟩)) ?_ ?_, rfl⟩
  · intro o' L h'
    by_cases e : o' = o
    · subst e
      simp only [Function.update_self, Option.some.injEq] at h'
      exact .inr fun k => by rw [← h']
    · rw [Function.update_of_ne e] at h'; exact .inl ⟨L, h', rfl, fun _ => id⟩
  · intro o' L₀ t q h' hq
    by_cases e : o' = o
    · subst e; rw [h] at h'; simp at h'
    · exact ⟨L₀, by rwa [Function.update_of_ne e], hq⟩

theorem inv_touch {w : World} (hi : Inv w) {o : Nat} {L : Obj} (hL : w.objs o = some L) (key : Int) : Inv (w.set o (L.touch key)) := by
  refine inv_objs hi (Function.update w.objs o (some (L.touch key))) ?_ ?_
  · intro o' L' h'
    by_cases e : o' = o
    · subst e
      simp only [Function.update_self, Option.some.injEq] at h'
      subst h'
      exact .inl ⟨L, hL, rfl, fun k hk => (mem_touch_keys L key k).2 (.inl hk)⟩
    · rw [Function.update_of_ne e] at h'; exact .inl ⟨L', h', rfl, fun _ => id⟩
  · intro o' L₀ t q h' hq
    by_cases e : o' = o
    · subst e
      rw [hL, Option.some.injEq] at h'
      subst h'
      exact ⟨_, Function.update_self .., hq⟩
    · exact ⟨L₀, by rwa [Function.update_of_ne e], hq⟩

open Classical in
theorem test_spec {w : World} (hi : Inv w) {o : Nat} {L : Obj} (hL : w.objs o = some L) (key : Int) (finished : Nat → Bool) :
    test w o key finished = .ok (if ∀ q, some q ∈ L.vec key → finished q = true then cleared w o L key ((L.vec key).map fun _ => none)
      else w.set o (L.touch key)) := by
  have h := free_eq hi hL key ((L.vec key).map fun _ => none)
  unfold test World.obj
  simp only [hL, Except.bind] at h ⊢
  have h1 : ∀ q ∈ (L.vec key).filterMap id, q ∈ w.live := fun q hq => hi.home _ _ _ _ hL (mem_ids.1 hq)
  rw [if_neg (not_not.2 h1)]
  have h2 : ((L.vec key).filterMap id).all finished = true ↔ ∀ q, some q ∈ L.vec key → finished q = true := by
    rw [List.all_eq_true]
    exact ⟨fun h q hq => h q (mem_ids.2 hq), fun h q hq => h q (mem_ids.1 hq)⟩
  by_cases hc : ∀ q, some q ∈ L.vec key → finished q = true
  · rw [if_pos hc, if_pos (h2.2 hc)]
    exact h
  · rw [if_neg hc, if_neg (fun a => hc (h2.1 a))]

/-! ## Histories -/

/-- what a user knows about the objects: which ones exist, and how many operations they issued per key since these were last waited for -/
structure Abs where
  alive : Nat → Bool
  cnt : Nat → Int → Nat

def Abs.init : Abs := ⟨fun _ => false, fun _ _ => 0⟩

/-- calls refer to existing objects (constructors to new ones), and no empty vectors are sent -/
def Abs.allows (a : Abs) : Op → Prop
  | .construct o _ => a.alive o = false
  | .sendVec o _ n => a.alive o = true ∧ 0 < n
  | .send o _ | .wait o _ | .waitAll o | .test o _ _ | .destroy o => a.alive o = true

def Abs.next (a : Abs) : Op → Abs
  | .construct o _ => ⟨Function.update a.alive o true, Function.update a.cnt o fun _ => 0⟩
  | .send o t => { a with cnt := Function.update a.cnt o (Function.update (a.cnt o) t (a.cnt o t + 1)) }
  | .sendVec o t _ => { a with cnt := Function.update a.cnt o (Function.update (a.cnt o) t (a.cnt o t + 1)) }
  | .wait o t => { a with cnt := Function.update a.cnt o (Function.update (a.cnt o) t 0) }
  | .waitAll o => { a with cnt := Function.update a.cnt o fun _ => 0 }
  | .test _ _ _ => a
  | .destroy o => ⟨Function.update a.alive o false, a.cnt⟩

/-- a valid history -/
def Valid (a : Abs) : List Op → Prop
  | [] => True
  | op :: ops => a.allows op ∧ Valid (a.next op) ops

def Abs.after (a : Abs) : List Op → Abs
  | [] => a
  | op :: ops => (a.next op).after ops

structure Sim (w : World) (a : Abs) : Prop where
  inv : Inv w
  alive : ∀ o, (w.objs o).isSome = a.alive o
  cnt : ∀ o L t, w.objs o = some L → (L.vec t).length = a.cnt o t

theorem sim_init : Sim World.empty Abs.init := ⟨inv_empty, fun _ => rfl, fun _ _ _ h => by simp [World.empty] at h⟩

theorem Sim.get {w : World} {a : Abs} (h : Sim w a) {o : Nat} (ho : a.alive o = true) : ∃ L, w.objs o = some L :=
  Option.isSome_iff_exists.1 ((h.alive o).trans ho)

/-- one object changes, and stays alive -/
theorem sim_upd {w w' : World} {a : Abs} (h : Sim w a) {o : Nat} (ho : a.alive o = true) {L' : Obj} (hi : Inv w')
    (hs : w'.objs o = some L') (hn : ∀ o', o' ≠ o → w'.objs o' = w.objs o') (c : Int → Nat) (hc : ∀ t, (L'.vec t).length = c t) :
    Sim w' { a with cnt := Function.update a.cnt o c } := by
  refine ⟨hi, fun o' => ?_, fun o' L t hL => ?_⟩
  · by_cases e : o' = o
    · subst e; rw [hs]; exact ho.symm
    · rw [hn _ e]; exact h.alive o'
  · by_cases e : o' = o
    · subst e
      rw [hs, Option.some.injEq] at hL
      subst hL
      simp [hc]
    · rw [hn _ e] at hL
      simp only [Function.update_of_ne e]
      exact h.cnt _ _ _ hL

theorem step_sim {w : World} {a : Abs} (h : Sim w a) {op : Op} (hop : a.allows op) : ∃ w', step w op = .ok w' ∧ Sim w' (a.next op) := by
  cases op with
  | construct o tag =>
    have hn : w.objs o = none := by
      have := (h.alive o).trans hop
      simpa using this
    obtain ⟨w', h1, h2, h3⟩ := construct_spec h.inv hn tag
    refine ⟨w', h1, h2, fun o' => ?_, fun o' L t hL => ?_⟩
    · by_cases e : o' = o
      · subst e; simp [h3, Abs.next]
      · simp only [h3, Abs.next, Function.update_of_ne e]; exact h.alive o'
    · by_cases e : o' = o
      · subst e
        simp only [h3, Function.update_self, Option.some.injEq] at hL
        subst hL
        simp [Abs.next]
      · rw [h3, Function.update_of_ne e] at hL
        simp only [Abs.next, Function.update_of_ne e]
        exact h.cnt _ _ _ hL
  | send o t =>
    obtain ⟨L, hL⟩ := h.get hop
    obtain ⟨w', h1, h2, h3, -⟩ := post_spec h.inv hL t t
    refine ⟨w', h1, sim_upd h hop h2 (by rw [h3, Function.update_self]) (fun o' e => by rw [h3, Function.update_of_ne e]) _ fun t' => ?_⟩
    by_cases e : t' = t
    · subst e; simp [h.cnt _ _ _ hL]
    · simp [Function.update_of_ne e, h.cnt _ _ _ hL]
  | sendVec o t n =>
    obtain ⟨L, hL⟩ := h.get hop.1
    obtain ⟨w', h1, h2, h3, -⟩ := post_spec h.inv hL L.tag t
    have hn : n ≠ 0 := by have := hop.2; omega
    refine ⟨w', by simpa [step, sendVec, World.obj, hL, Except.bind, hn] using h1,
      sim_upd h hop.1 h2 (by rw [h3, Function.update_self]) (fun o' e => by rw [h3, Function.update_of_ne e]) _ fun t' => ?_⟩
    by_cases e : t' = t
    · subst e; simp [h.cnt _ _ _ hL]
    · simp [Function.update_of_ne e, h.cnt _ _ _ hL]
  | wait o t =>
    obtain ⟨L, hL⟩ := h.get hop
    refine ⟨_, by simp only [step, wait_spec h.inv hL, Except.bind], sim_upd h hop (inv_cleared h.inv hL t [] (by simp)) (cleared_self ..)
      (fun o' e => cleared_ne _ _ _ _ _ e) _ fun t' => ?_⟩
    by_cases e : t' = t
    · subst e; simp
    · simp [Function.update_of_ne e, h.cnt _ _ _ hL]
  | waitAll o =>
    obtain ⟨L, hL⟩ := h.get hop
    obtain ⟨w', h1, h2, h3, ⟨L', h4, -, h5⟩, -⟩ := waitAll_spec h.inv hL
    exact ⟨w', h1, sim_upd h hop h2 h4 h3 _ fun t => by rw [h5]; rfl⟩
  | test o t f =>
    obtain ⟨L, hL⟩ := h.get hop
    refine ⟨_, test_spec h.inv hL t f, ?_⟩
    have hc : Function.update a.cnt o (a.cnt o) = a.cnt := Function.update_eq_self ..
    split
    · have := sim_upd h hop (inv_cleared h.inv hL t ((L.vec t).map fun _ => none) (by simp)) (cleared_self ..) (fun o' e => cleared_ne _ _ _ _ _ e) (a.cnt o) fun t' => by
        by_cases e : t' = t
        · subst e; simp [h.cnt _ _ _ hL]
        · simp [Function.update_of_ne e, h.cnt _ _ _ hL]
      rw [hc] at this
      exact this
    · have := sim_upd h hop (inv_touch h.inv hL t) (L' := L.touch t) (by simp [World.set]) (fun o' e => by simp [World.set, Function.update_of_ne e]) (a.cnt o) fun t' => by
        rw [touch_vec]; exact h.cnt _ _ _ hL
      rw [hc] at this
      exact this
  | destroy o =>
    obtain ⟨L, hL⟩ := h.get hop
    obtain ⟨w', h1, h2, h3, h4, -⟩ := destroy_spec h.inv hL
    refine ⟨w', h1, h2, fun o' => ?_, fun o' L' t hL' => ?_⟩
    · by_cases e : o' = o
      · subst e; simp [h4, Abs.next]
      · simp only [h3 _ e, Abs.next, Function.update_of_ne e]; exact h.alive o'
    · by_cases e : o' = o
      · subst e; rw [h4] at hL'; simp at hL'
      · rw [h3 _ e] at hL'
        exact h.cnt _ _ _ hL'

theorem run_sim : ∀ (ops : List Op) {w : World} {a : Abs}, Sim w a → Valid a ops → ∃ w', run w ops = .ok w' ∧ Sim w' (a.after ops)
  | [], w, a, h, _ => ⟨w, rfl, h⟩
  | op :: ops, w, a, h, hv => by
    obtain ⟨w1, h1, h2⟩ := step_sim h hv.1
    obtain ⟨w2, h3, h4⟩ := run_sim ops h2 hv.2
    exact ⟨w2, by simp only [run, h1, Except.bind]; exact h3, h4⟩

end LGD.Layer
