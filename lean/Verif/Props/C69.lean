import Verif.Text.TokenLemmas
import Verif.Props.C12
import Verif.Image.PpmLemmas
import Mathlib.Tactic.FieldSimp

/-!
# C69: text carries commands, cells and durations

Words separated by blanks reach actions and handlers as typed, text files list the members of all cells in storage order with
rows on lines of their own, and durations are printed with a precision of a microsecond. Pipes deliver nothing, though, rows
can't be told apart if the grid's bounding box doesn't start at zero, and time spans of 2^31 seconds or more (the time since
1970 from January 2038 on, estimates for simulations beyond their expected number of steps) are undefined.
-/

namespace LGD.C69

open LGD.Text LGD.C12 LGD.C05 LGD.C01

/-! ## Words -/

/-- **C69 (tokens).** For all strings and delimiters, `tokenize` yields exactly the maximal nonempty parts without delimiters, in
order; there is only one way to split a string like that. -/
theorem tokens (s D : Str) : ∃ ts, tokenize s D = some ts ∧ Splits D s ts ∧ ∀ ts', Splits D s ts' → ts' = ts := by
  obtain ⟨ts, h1, h2⟩ := tokenize_splits s D
  exact ⟨ts, h1, h2, fun ts' h => splits_unique h h2⟩

/-- **C69 (join).** Joined words are taken apart again. -/
theorem join_tokenize (D d : Str) (h0 : d ≠ []) (hd : ∀ c ∈ d, c ∈ D) (ts : List Str) (h : ∀ t ∈ ts, Word D t) : tokenize (join ts d) D = some ts :=
  tokenize_of_splits (join_splits h0 hd ts h)

/-! ## Commands -/

/-- a word as typed by a user: neither blanks nor line breaks -/
def Typed (t : Str) : Prop := Word [32, 10, 13] t

/-- a line as typed: command and parameters separated by blanks, followed by the terminal's line break -/
def typeLine (eol : Str) (cmd : Str × List Str) : Str := join (cmd.1 :: cmd.2) [32] ++ eol

theorem line_splits (eol : Str) (he : eol = [10] ∨ eol = [13, 10]) (cmd : Str × List Str) (h : Typed cmd.1) (hp : ∀ p ∈ cmd.2, Typed p) :
    ∃ l : Str, typeLine eol cmd = l ++ [10] ∧ Word [10] l ∧ tokenize l [32, 10, 13] = some (cmd.1 :: cmd.2) ∧ (cmd.1 ≠ [0] → l ≠ [0]) := by
  have hw : ∀ t ∈ cmd.1 :: cmd.2, Word [32, 10, 13] t := by
    intro t ht
    rcases List.mem_cons.1 ht with rfl | ht
    · exact h
    · exact hp t ht
  have hj := join_splits (D := [32, 10, 13]) (d := [32]) (by simp) (by simp) _ hw
  have hne : join (cmd.1 :: cmd.2) [32] = cmd.1 ++ cmd.2.flatMap (fun t => [32] ++ t) := by
    simp only [join]; rw [foldl_join]
  have h10 : ∀ c ∈ join (cmd.1 :: cmd.2) [32], c ≠ 10 := by
    rw [hne]
    intro c hc e
    subst e
    rcases List.mem_append.1 hc with hc | hc
    · exact h.2 10 hc (by simp)
    · obtain ⟨t, ht, hc⟩ := List.mem_flatMap.1 hc
      rcases List.mem_append.1 hc with hc | hc
      · simp at hc
      · exact (hp t ht).2 10 hc (by simp)
  have hlen : join (cmd.1 :: cmd.2) [32] ≠ [] := by
    rw [hne]; intro e
    exact h.1 (List.append_eq_nil_iff.1 e).1
  have hz : ∀ e : Str, (∀ c ∈ e, c = 13) → cmd.1 ≠ [0] → join (cmd.1 :: cmd.2) [32] ++ e ≠ [0] := by
    intro e hec hn hj0
    rw [hne] at hj0
    rw [List.append_assoc] at hj0
    cases hc : cmd.1 with
    | nil => exact h.1 hc
    | cons x xs =>
      rw [hc, List.cons_append] at hj0
      simp only [List.cons.injEq, List.append_eq_nil_iff] at hj0
      rw [hc, hj0.1, hj0.2.1] at hn
      exact hn rfl
  have htail : ∀ e : Str, (∀ c ∈ e, c = 13) → tokenize (join (cmd.1 :: cmd.2) [32] ++ e) [32, 10, 13] = some (cmd.1 :: cmd.2) := by
    intro e hec
    apply tokenize_of_splits
    cases e with
    | nil => simpa using hj
    | cons c e =>
      have hE : Splits [32, 10, 13] (c :: e) [] := Splits.nil (fun x hx => by rw [hec x hx]; simp)
      -- all words but the last are followed by blanks, the last one by the rest
      have key : ∀ (ts : List Str) (t : Str), Word [32, 10, 13] t → (∀ u ∈ ts, Word [32, 10, 13] u) →
          Splits [32, 10, 13] (t ++ ts.flatMap (fun t => [32] ++ t) ++ (c :: e)) (t :: ts) := by
        intro ts
        induction ts with
        | nil =>
          intro t ht _
          have := Splits.cons (D := [32, 10, 13]) (sep := []) (tok := t) (rest := c :: e) (by simp) ht.1 ht.2
            (Or.inr ⟨c, e, rfl, by rw [hec c (by simp)]; simp⟩) hE
          simpa using this
        | cons u us ih =>
          intro t ht hu
          have h1 := splits_prepend (d := 32) (by simp) (ih u (hu u (by simp)) (fun x hx => hu x (by simp [hx])))
          have := Splits.cons (D := [32, 10, 13]) (sep := []) (tok := t) (by simp) ht.1 ht.2 (Or.inr ⟨32, _, rfl, by simp⟩) h1
          simpa using this
      rw [hne]
      exact key cmd.2 cmd.1 h hp
  rcases he with rfl | rfl
  · refine ⟨join (cmd.1 :: cmd.2) [32], rfl, ⟨hlen, fun c hc => by simpa using h10 c hc⟩, ?_, ?_⟩
    · simpa using htail [] (by simp)
    · simpa using hz [] (by simp)
  · refine ⟨join (cmd.1 :: cmd.2) [32] ++ [13], by simp [typeLine], ⟨by simp, fun c hc => ?_⟩, htail [13] (by simp), hz [13] (by simp)⟩
    rcases List.mem_append.1 hc with hc | hc
    · simpa using h10 c hc
    · simp only [List.mem_singleton] at hc; subst hc; decide

/-- the answer to a command -/
def answer (known : Str → Bool) (cmd : Str × List Str) : List Effect :=
  if known cmd.1 = true then [.invoke cmd.1 cmd.2] else [.feedback (msgNotFound ++ cmd.1), .feedback msgTryHelp]

/-- **C69 (commands).** For every sequence of lines typed (ending in `\n` or `\r\n`), the command server runs the actions named by
the first words, in the order of the lines, with exactly the other words as parameters; unknown commands are reported. -/
theorem commands (known : Str → Bool) (eol : Str) (he : eol = [10] ∨ eol = [13, 10]) (cmds : List (Str × List Str))
    (h : ∀ c ∈ cmds, Typed c.1 ∧ c.1 ≠ [0] ∧ ∀ p ∈ c.2, Typed p) :
    handleInput known (cmds.flatMap (typeLine eol)) = some (cmds.flatMap (answer known)) := by
  have key : ∃ ls : List Str, cmds.flatMap (typeLine eol) = ls.flatMap (fun l => l ++ [10]) ∧ (∀ l ∈ ls, Word [10] l) ∧
      handleLines known ls = some (cmds.flatMap (answer known)) := by
    induction cmds with
    | nil => exact ⟨[], rfl, by simp, rfl⟩
    | cons c cs ih =>
      obtain ⟨ls, h1, h2, h3⟩ := ih (fun x hx => h x (by simp [hx]))
      obtain ⟨q1, q2, q3⟩ := h c (by simp)
      obtain ⟨l, r1, r2, r3, r4⟩ := line_splits eol he c q1 q3
      refine ⟨l :: ls, ?_, ?_, ?_⟩
      · rw [List.flatMap_cons, List.flatMap_cons, h1, r1]
      · intro x hx
        rcases List.mem_cons.1 hx with rfl | hx
        · exact r2
        · exact h2 x hx
      · have hl : handleLine known l = some (answer known c) := by
          unfold handleLine
          rw [r3]
          simp only [Option.bind_some, if_neg (r4 q2), List.length_cons, Nat.add_one_ne_zero, if_false, popFront, Option.map_some, answer]
        rw [handleLines, hl, h3, List.flatMap_cons]
        rfl
  obtain ⟨ls, h1, h2, h3⟩ := key
  unfold handleInput
  have := splits_after (D := [10]) (d := [10]) (by simp) (by simp) (Splits.nil (s := []) (by simp)) ls h2
  rw [List.append_nil, List.append_nil] at this
  rw [h1, tokenize_of_splits this]
  exact h3

/-- No input whatsoever makes the command server crash, and all it runs are known actions, with parameters which are words. -/
theorem input_safe (known : Str → Bool) (input : Str) :
    ∃ es, handleInput known input = some es ∧ ∀ c ps, Effect.invoke c ps ∈ es → known c = true ∧ Typed c ∧ ∀ p ∈ ps, Typed p := by
  obtain ⟨ls, h1, -⟩ := tokenize_splits input [10]
  unfold handleInput
  rw [h1, Option.bind_some]
  clear h1
  induction ls with
  | nil => exact ⟨[], rfl, by simp⟩
  | cons l ls ih =>
    obtain ⟨es, h2, h3⟩ := ih
    obtain ⟨ts, h4, h5⟩ := tokenize_splits l [32, 10, 13]
    have hl : ∃ e, handleLine known l = some e ∧ ∀ c ps, Effect.invoke c ps ∈ e → known c = true ∧ Typed c ∧ ∀ p ∈ ps, Typed p := by
      unfold handleLine
      rw [h4, Option.bind_some]
      by_cases hz : l = [0]
      · exact ⟨[], by rw [if_pos hz], by simp⟩
      · rw [if_neg hz]
        cases ts with
        | nil => exact ⟨_, rfl, by simp⟩
        | cons t ts =>
          simp only [List.length_cons, Nat.add_one_ne_zero, if_false, popFront, Option.map_some]
          refine ⟨_, rfl, fun c ps hm => ?_⟩
          by_cases hk : known t = true
          · rw [if_pos hk] at hm
            simp only [List.mem_singleton, Effect.invoke.injEq] at hm
            obtain ⟨rfl, rfl⟩ := hm
            exact ⟨hk, splits_words h5 c (by simp), fun p hp => splits_words h5 p (by simp [hp])⟩
          · rw [if_neg hk] at hm
            simp at hm
    obtain ⟨e, h6, h7⟩ := hl
    refine ⟨e ++ es, by rw [handleLines, h6, Option.bind_some, h2, Option.map_some], fun c ps hm => ?_⟩
    rcases List.mem_append.1 hm with hm | hm
    · exact h7 c ps hm
    · exact h3 c ps hm

/-- **C69 (requests).** What a pass-through action puts into a request is what the steerer takes out of it. -/
theorem requests (key : Str) (ps : List Str) (hk : Word [32] key) (hp : ∀ p ∈ ps, Word [32] p) : decodeRequest (request key ps) = some (key, ps) := by
  unfold decodeRequest
  have h1 := splits_prepend (d := 32) (by simp) (join_splits (D := [32]) (d := [32]) (by simp) (by simp) ps hp)
  have := Splits.cons (D := [32]) (sep := []) (tok := key) (by simp) hk.1 hk.2 (Or.inr ⟨32, _, rfl, by simp⟩) h1
  have e : request key ps = [] ++ key ++ 32 :: join ps [32] := by simp [request]
  rw [e, tokenize_of_splits this]
  rfl

theorem typed_word {t : Str} (h : Typed t) : Word [32] t := ⟨h.1, fun c hc hm => h.2 c hc (by simp only [List.mem_singleton] at hm; simp [hm])⟩

/-- **C69 (end to end).** Whatever is typed, a handler gets the words the action got. -/
theorem typed_to_handled (known : Str → Bool) (input : Str) (es : List Effect) (h : handleInput known input = some es) (c : Str) (ps : List Str)
    (hm : Effect.invoke c ps ∈ es) : decodeRequest (request c ps) = some (c, ps) := by
  obtain ⟨es', h1, h2⟩ := input_safe known input
  rw [h, Option.some.injEq] at h1
  subst h1
  obtain ⟨-, h3, h4⟩ := h2 c ps hm
  exact requests c ps (typed_word h3) (fun p hp => typed_word (h4 p hp))

/-- Requests without words are undefined behaviour. -/
theorem blank_request_undefined (r : Str) (h : ∀ c ∈ r, c = 32) : decodeRequest r = none := by
  unfold decodeRequest
  rw [tokenize_of_splits (Splits.nil (D := [32]) (fun c hc => by rw [h c hc]; simp))]
  rfl

/-- **C69, violated.** Pipes drop all requests and all feedback. -/
theorem pipes_lose_everything (rs fs : List Str) : let p := fs.foldl Pipe.addFeedback (rs.foldl Pipe.addRequest ⟨⟩)
    p.requests = [] ∧ p.feedback = [] := ⟨rfl, rfl⟩

/-- **C69, violated.** In 2D, `get_MEMBER T X Y` reads from (0, X). -/
theorem get_reads_wrong_cell (t x y : Int) : ∃ c, getCoord 1 [t, x, y] = some c ∧ c 0 = 0 ∧ c 1 = x :=
  ⟨_, rfl, rfl, rfl⟩

/-- In 3D, it reads from (0, X, Y). -/
theorem get_reads_wrong_cell_3d (t x y z : Int) : ∃ c, getCoord 2 [t, x, y, z] = some c ∧ c 0 = 0 ∧ c 1 = x ∧ c 2 = y :=
  ⟨_, rfl, rfl, rfl, rfl⟩

/-- Too few parameters are undefined behaviour. -/
theorem get_undefined (n : Nat) (ps : List Int) (h : ps.length ≤ n) : getCoord n ps = none := by
  unfold getCoord
  rw [if_neg (by omega)]

/-- **C69, violated.** The command to set a member is not the one the help mentions. -/
theorem set_help_wrong (m : Str) : setKey m ≠ setHelp m := by
  intro h
  have := congrArg List.length h
  simp [setKey, setHelp] at this

/-! ## Text files -/

theorem streakCells_mem (n : Nat) (s : Streak) (c : Crd) (hs : c ∈ streakCells s) : InStreak n s c := by
  obtain ⟨i, hi, rfl⟩ := List.mem_map.1 hs
  have := List.mem_range.1 hi
  refine ⟨?_, ?_, fun k h1 _ => ?_⟩
  · simp only [upd, if_true]; omega
  · simp only [upd, if_true]; omega
  · simp only [upd]; rw [if_neg (by omega)]

theorem mem_streakCells (n : Nat) (s : Streak) (c : Crd) (h : InStreak n s c) : ∃ c' ∈ streakCells s, ∀ k, k ≤ n → c' k = c k := by
  obtain ⟨h1, h2, h3⟩ := h
  refine ⟨_, List.mem_map.2 ⟨(c 0 - s.origin 0).toNat, List.mem_range.2 (by omega), rfl⟩, fun k hk => ?_⟩
  by_cases e : k = 0
  · subst e; simp only [upd, if_true]; omega
  · simp only [upd, if_neg e]; exact (h3 k (by omega) hk).symm

theorem streak_splits (D : Str) (hD : 32 ∈ D) (rend : Crd → Str) (hr : ∀ c, Word D (rend c)) (cs : List Crd) {rest : Str} {us : List Str} (h : Splits D rest us) :
    Splits D (cellText rend cs ++ rest) (cs.map rend ++ us) := by
  have := splits_after (D := D) (d := [32]) (by simp) (by simpa using hD) h (cs.map rend) (by
    intro t ht
    obtain ⟨c, -, rfl⟩ := List.mem_map.1 ht
    exact hr c)
  rw [List.flatMap_map] at this
  exact this

theorem newlines_seps (n : Nat) (o : Crd) : ∀ c ∈ newlines n o, c = 10 := by
  unfold newlines
  split
  · intro c hc; exact (List.mem_replicate.1 hc).2
  · simp

/-- **C69 (files).** If members are printed as words, splitting the file at blanks and line breaks yields the members of the cells of
the grid's bounding box: all of them, once, in storage order. -/
theorem file_words (n : Nat) (b : Box) (h0 : 0 ≤ b.dims 0) (hd : ∀ k, 1 ≤ k → k < n → 0 < b.dims k) (hl : 0 ≤ b.dims n) (fuel : Nat)
    (hf : (Volume n (rows n b)).toNat < fuel) (rend : Crd → Str) (hr : ∀ c, Word [32, 10] (rend c)) :
    ∃ (text : Str) (cells : List Crd), ascii n b rend fuel = some text ∧ tokenize text [32, 10] = some (cells.map rend) ∧
      cells.Pairwise (Before n) ∧ (∀ c ∈ cells, InBox n b c) ∧ (∀ c, InBox n b c → ∃ c' ∈ cells, ∀ k, k ≤ n → c' k = c k) := by
  obtain ⟨l, h1, h2, h3, h4, -⟩ := streaks_partial n b h0 hd hl fuel hf
  refine ⟨l.flatMap (fun s => newlines n s.origin ++ cellText rend (streakCells s)), l.flatMap streakCells, by unfold ascii; rw [h1]; rfl, ?_, ?_, ?_, ?_⟩
  · apply tokenize_of_splits
    clear h1 h2 h3 h4
    induction l with
    | nil => exact Splits.nil (by simp)
    | cons s l ih =>
      rw [List.flatMap_cons, List.flatMap_cons, List.map_append, List.append_assoc]
      exact splits_seps _ (fun c hc => by rw [newlines_seps n _ c hc]; simp) (streak_splits _ (by simp) rend hr _ ih)
  · have hw : ∀ s ∈ l, s.origin 0 = b.origin 0 := fun s hs => (h3 s hs).1
    clear h1 h2 h3
    induction l with
    | nil => simp
    | cons s l ih =>
      rw [List.flatMap_cons]
      have h4' := List.pairwise_cons.1 (by simpa using h4 : (s.origin :: l.map (·.origin)).Pairwise (Before n))
      refine List.pairwise_append.2 ⟨?_, ih h4'.2 (fun x hx => hw x (by simp [hx])), fun a ha c hc => ?_⟩
      · refine List.pairwise_map.2 ((List.pairwise_lt_range (n := _)).imp (fun {i j} hij => ?_))
        refine ⟨0, Nat.zero_le _, by simp only [upd, if_true]; omega, fun k hk _ => ?_⟩
        simp only [upd]; rw [if_neg (by omega), if_neg (by omega)]
      · obtain ⟨i, hi, rfl⟩ := List.mem_map.1 ha
        obtain ⟨s', hs', hc⟩ := List.mem_flatMap.1 hc
        obtain ⟨j, hj, rfl⟩ := List.mem_map.1 hc
        obtain ⟨k, hk, hlt, heq⟩ := h4'.1 s'.origin (List.mem_map.2 ⟨s', hs', rfl⟩)
        have hk0 : k ≠ 0 := by
          intro e; subst e
          rw [hw s (by simp), hw s' (by simp [hs'])] at hlt
          omega
        refine ⟨k, hk, by simp only [upd, if_neg hk0]; exact hlt, fun m hm hmn => ?_⟩
        simp only [upd]; rw [if_neg (by omega), if_neg (by omega)]
        exact heq m hm hmn
  · intro c hc
    obtain ⟨s, hs, hc⟩ := List.mem_flatMap.1 hc
    exact (h2 c).1 ⟨s, hs, streakCells_mem n s c hc⟩
  · intro c hc
    obtain ⟨s, hs, hi⟩ := (h2 c).2 hc
    obtain ⟨c', h5, h6⟩ := mem_streakCells n s c hi
    exact ⟨c', List.mem_flatMap.2 ⟨s, hs, h5⟩, h6⟩

/-- **C69 (lines).** If the bounding box starts at x = 0 and isn't empty, each of its rows is a line of the file, and one
additional empty line precedes the row for each further coordinate which is zero. -/
theorem file_lines (n : Nat) (b : Box) (ho : b.origin 0 = 0) (h0 : 0 < b.dims 0) (hd : ∀ k, 1 ≤ k → k < n → 0 < b.dims k) (hl : 0 ≤ b.dims n) (fuel : Nat)
    (hf : (Volume n (rows n b)).toNat < fuel) (rend : Crd → Str) (hr : ∀ c, Word [32, 10] (rend c)) :
    ∃ (text : Str) (l : List Streak), ascii n b rend fuel = some text ∧ boxStreaks n b fuel = some l ∧
      (l.length : Int) = Volume n (rows n b) ∧ tokenize text [10] = some (l.map (fun s => cellText rend (streakCells s))) ∧
      text = l.flatMap (fun s => List.replicate (1 + ((List.range n).countP (fun d => decide (s.origin (d + 1) = 0)))) 10 ++ cellText rend (streakCells s)) := by
  obtain ⟨l, h1, h2, h3, h4, h5⟩ := streaks_partial n b (by omega) hd hl fuel hf
  have hnl : ∀ s ∈ l, newlines n s.origin = List.replicate (1 + ((List.range n).countP (fun d => decide (s.origin (d + 1) = 0)))) 10 := by
    intro s hs
    have := (h3 s hs).1
    unfold newlines
    rw [if_pos (by omega), List.range_succ_eq_map, List.countP_cons, if_pos (by simp; omega), List.countP_map, Nat.add_comm]
    rfl
  refine ⟨l.flatMap (fun s => newlines n s.origin ++ cellText rend (streakCells s)), l, by unfold ascii; rw [h1]; rfl, h1, h5, ?_, ?_⟩
  · apply tokenize_of_splits
    have hs : ∀ s ∈ l, Word [10] (cellText rend (streakCells s)) := by
      intro s hs
      have hx := h3 s hs
      refine ⟨?_, ?_⟩
      · have : streakCells s ≠ [] := by
          intro e
          have := congrArg List.length e
          simp only [streakCells, List.length_map, List.length_range, List.length_nil] at this
          omega
        intro e
        cases hc : streakCells s with
        | nil => exact this hc
        | cons c cs => rw [hc] at e; simp [cellText] at e
      · intro c hc hm
        simp only [List.mem_singleton] at hm
        subst hm
        obtain ⟨x, -, hc⟩ := List.mem_flatMap.1 hc
        rcases List.mem_append.1 hc with hc | hc
        · exact (hr x).2 10 hc (by simp)
        · simp at hc
    have hstart : ∀ s ∈ l, ∃ r, newlines n s.origin = 10 :: r := by
      intro s hs
      rw [hnl s hs, Nat.add_comm, List.replicate_succ]
      exact ⟨_, rfl⟩
    clear h1 h2 h3 h4 h5 hnl
    induction l with
    | nil => exact Splits.nil (by simp)
    | cons s l ih =>
      rw [List.flatMap_cons, List.map_cons]
      refine Splits.cons (sep := newlines n s.origin) (fun c hc => by rw [newlines_seps n _ c hc]; simp) (hs s (by simp)).1 (hs s (by simp)).2 ?_
        (ih (fun x hx => hs x (by simp [hx])) (fun x hx => hstart x (by simp [hx])))
      cases l with
      | nil => exact Or.inl rfl
      | cons t l =>
        obtain ⟨r, hr'⟩ := hstart t (by simp)
        exact Or.inr ⟨10, _, by rw [List.flatMap_cons, hr']; rfl, by simp⟩
  · clear h1 h2 h3 h4 h5
    induction l with
    | nil => rfl
    | cons s l ih =>
      rw [List.flatMap_cons, List.flatMap_cons, ih (fun x hx => hnl x (by simp [hx])), hnl s (by simp)]

/-- **C69, violated.** For bounding boxes which don't start at x = 0, files contain no line breaks. -/
theorem rows_indistinguishable (n : Nat) (b : Box) (ho : b.origin 0 ≠ 0) (h0 : 0 ≤ b.dims 0) (hd : ∀ k, 1 ≤ k → k < n → 0 < b.dims k) (hl : 0 ≤ b.dims n) (fuel : Nat)
    (hf : (Volume n (rows n b)).toNat < fuel) (rend : Crd → Str) (hr : ∀ c, Word [32, 10] (rend c)) :
    ∃ text, ascii n b rend fuel = some text ∧ 10 ∉ text := by
  obtain ⟨l, h1, -, h3, -, -⟩ := streaks_partial n b h0 hd hl fuel hf
  refine ⟨l.flatMap (fun s => newlines n s.origin ++ cellText rend (streakCells s)), by unfold ascii; rw [h1]; rfl, fun hm => ?_⟩
  obtain ⟨s, hs, hm⟩ := List.mem_flatMap.1 hm
  rw [newlines, if_neg (by rw [(h3 s hs).1]; exact ho), List.nil_append] at hm
  obtain ⟨c, -, hm⟩ := List.mem_flatMap.1 hm
  rcases List.mem_append.1 hm with hm | hm
  · exact (hr c).2 10 hm (by simp)
  · simp at hm

/-- Files are written in all steps the period divides and for the first and the last step; different steps yield different
files. -/
theorem file_steps (n : Nat) (b : Box) (rend : Crd → Str) (fuel : Nat) (pre : Str) (period step : Nat) (ev : Image.Event) (t : Str) (ht : ascii n b rend fuel = some t) :
    asciiStep n b rend fuel pre period step ev = some (if ev ≠ .stepFinished ∨ period ∣ step then some (asciiName pre step, t) else none) := by
  unfold asciiStep
  rw [ht]
  by_cases h1 : ev = .stepFinished
  · by_cases h2 : step % period = 0
    · rw [if_neg (fun h => h.2 h2), if_pos (Or.inr (Nat.dvd_of_mod_eq_zero h2))]; rfl
    · rw [if_pos ⟨h1, h2⟩, if_neg]
      rintro (h | h)
      · exact h h1
      · exact h2 (Nat.mod_eq_zero_of_dvd h)
  · rw [if_neg (fun h => h1 h.1), if_pos (Or.inl h1)]; rfl

theorem file_names (pre : Str) (a b : Nat) (h : asciiName pre a = asciiName pre b) : a = b := by
  unfold asciiName at h
  have h := List.append_cancel_left (List.append_cancel_right h)
  have := congrArg Image.val h
  rw [Image.val_zeros, Image.val_zeros, Image.val_dec, Image.val_dec] at this
  exact this

/-! ## Durations -/

/-- how people read `hh:mm:ss` and `hh:mm:ss.ffffff` -/
def readDuration (text : Str) : Option ℚ :=
  match tokenize text [58, 46] with
  | some [h, m, s] => some ((Image.val h : ℚ) * 3600 + (Image.val m : ℚ) * 60 + (Image.val s : ℚ))
  | some [h, m, s, f] => some ((Image.val h : ℚ) * 3600 + (Image.val m : ℚ) * 60 + (Image.val s : ℚ) + (Image.val f : ℚ) / 10 ^ f.length)
  | _ => none

theorem dec_length (w : Nat) : ∀ k, 1 ≤ w → k < 10 ^ w → (Image.dec k).length ≤ w := by
  induction w with
  | zero => intro k h; omega
  | succ w ih =>
    intro k _ hk
    rw [Image.dec]
    split
    · simp
    · rename_i h
      rw [List.length_append, List.length_singleton]
      have h1 : 1 ≤ w := by
        by_contra hc
        have : w = 0 := by omega
        subst this
        omega
      have := ih (k / 10) h1 (by rw [Nat.pow_succ] at hk; omega)
      omega

theorem pad_length (w k : Nat) (h : 1 ≤ w) (hk : k < 10 ^ w) : (pad w k).length = w := by
  have := dec_length w k h hk
  unfold pad
  rw [List.length_append, List.length_replicate]
  omega

theorem pad_val (w k : Nat) : Image.val (pad w k) = k := by
  unfold pad
  rw [Image.val_zeros, Image.val_dec]

theorem pad_word (w k : Nat) : Word [58, 46] (pad w k) := by
  refine ⟨fun h => Image.dec_ne_nil k (List.append_eq_nil_iff.1 h).2, fun c hc hm => ?_⟩
  have hd : Image.isDigit c = true := by
    rcases List.mem_append.1 hc with h | h
    · rw [(List.mem_replicate.1 h).2]; rfl
    · exact Image.dec_digits k c h
  simp only [List.mem_cons, List.not_mem_nil, or_false] at hm
  rcases hm with rfl | rfl <;> exact absurd hd (by decide)

theorem render_words (h m s : Nat) : Splits [58, 46] (pad 2 h ++ [58] ++ pad 2 m ++ [58] ++ pad 2 s) [pad 2 h, pad 2 m, pad 2 s] := by
  have h3 := Splits.cons (D := [58, 46]) (sep := []) (rest := []) (by simp) (pad_word 2 s).1 (pad_word 2 s).2 (Or.inl rfl) (Splits.nil (by simp))
  have h2 := Splits.cons (D := [58, 46]) (sep := []) (by simp) (pad_word 2 m).1 (pad_word 2 m).2 (Or.inr ⟨58, _, rfl, by simp⟩) (splits_prepend (d := 58) (by simp) h3)
  have h1 := Splits.cons (D := [58, 46]) (sep := []) (by simp) (pad_word 2 h).1 (pad_word 2 h).2 (Or.inr ⟨58, _, rfl, by simp⟩) (splits_prepend (d := 58) (by simp) h2)
  simpa using h1

theorem render_words_frac (h m s f : Nat) : Splits [58, 46] (pad 2 h ++ [58] ++ pad 2 m ++ [58] ++ pad 2 s ++ ([46] ++ pad 6 f)) [pad 2 h, pad 2 m, pad 2 s, pad 6 f] := by
  have h4 := Splits.cons (D := [58, 46]) (sep := []) (rest := []) (by simp) (pad_word 6 f).1 (pad_word 6 f).2 (Or.inl rfl) (Splits.nil (by simp))
  have h3 := Splits.cons (D := [58, 46]) (sep := []) (by simp) (pad_word 2 s).1 (pad_word 2 s).2 (Or.inr ⟨46, _, rfl, by simp⟩) (splits_prepend (d := 46) (by simp) h4)
  have h2 := Splits.cons (D := [58, 46]) (sep := []) (by simp) (pad_word 2 m).1 (pad_word 2 m).2 (Or.inr ⟨58, _, rfl, by simp⟩) (splits_prepend (d := 58) (by simp) h3)
  have h1 := Splits.cons (D := [58, 46]) (sep := []) (by simp) (pad_word 2 h).1 (pad_word 2 h).2 (Or.inr ⟨58, _, rfl, by simp⟩) (splits_prepend (d := 58) (by simp) h2)
  simpa using h1

/-- **C69 (durations).** Durations of less than 2^31 seconds are printed as hours, minutes below 60 and seconds below 60 with two
digits each, followed by a fraction unless the duration is a whole number of seconds; people read the duration from that,
rounded down to a microsecond. -/
theorem durations_partial (q : ℚ) (h0 : 0 ≤ q) (hb : q < 2 ^ 31) :
    ∃ text r, renderDuration q = some text ∧ readDuration text = some r ∧ r ≤ q ∧ q < r + 1 / 10 ^ 6 ∧
      ∃ h m s fs, tokenize text [58, 46] = some (h :: m :: s :: fs) ∧ m.length = 2 ∧ Image.val m < 60 ∧ s.length = 2 ∧ Image.val s < 60 ∧
        (fs = [] ↔ ∃ k : Nat, q = (k : ℚ)) := by
  have hfl : (⌊q⌋₊ : ℚ) ≤ q := Nat.floor_le h0
  have hfu : q < (⌊q⌋₊ : ℚ) + 1 := Nat.lt_floor_add_one q
  have hlt : ⌊q⌋₊ < 2 ^ 31 := by
    have : (⌊q⌋₊ : ℚ) < ((2 ^ 31 : Nat) : ℚ) := lt_of_le_of_lt hfl (by push_cast; exact hb)
    exact_mod_cast this
  generalize hK : ⌊q⌋₊ = K at *
  have hdecomp : K / 3600 * 3600 + K / 60 % 60 * 60 + K % 60 = K := by omega
  have hdq : ((K / 3600 : Nat) : ℚ) * 3600 + ((K / 60 % 60 : Nat) : ℚ) * 60 + ((K % 60 : Nat) : ℚ) = (K : ℚ) := by exact_mod_cast hdecomp
  have hm : (pad 2 (K / 60 % 60)).length = 2 := pad_length 2 _ (by omega) (by omega)
  have hs : (pad 2 (K % 60)).length = 2 := pad_length 2 _ (by omega) (by omega)
  have hmv : Image.val (pad 2 (K / 60 % 60)) < 60 := by rw [pad_val]; omega
  have hsv : Image.val (pad 2 (K % 60)) < 60 := by rw [pad_val]; omega
  by_cases hf : q - (K : ℚ) > 0
  · have hF0 : (⌊(q - (K : ℚ)) * 1000000⌋₊ : ℚ) ≤ (q - (K : ℚ)) * 1000000 := Nat.floor_le (by linarith)
    have hF1 := Nat.lt_floor_add_one ((q - (K : ℚ)) * 1000000)
    have hFl : ⌊(q - (K : ℚ)) * 1000000⌋₊ < 10 ^ 6 := by
      have : (⌊(q - (K : ℚ)) * 1000000⌋₊ : ℚ) < ((10 ^ 6 : Nat) : ℚ) := lt_of_le_of_lt hF0 (by push_cast; linarith)
      exact_mod_cast this
    have ht := tokenize_of_splits (render_words_frac (K / 3600) (K / 60 % 60) (K % 60) ⌊(q - (K : ℚ)) * 1000000⌋₊)
    refine ⟨_, _, by unfold renderDuration; simp only [hK]; rw [if_pos hlt, if_pos hf], by unfold readDuration; rw [ht], ?_, ?_, _, _, _, _, ht, hm, hmv, hs, hsv, ?_⟩
    · simp only [pad_val]
      rw [hdq, pad_length 6 _ (by omega) hFl]
      have : (⌊(q - (K : ℚ)) * 1000000⌋₊ : ℚ) / 10 ^ 6 ≤ q - (K : ℚ) := by
        rw [div_le_iff₀ (by norm_num)]; linarith
      linarith
    · simp only [pad_val]
      rw [hdq, pad_length 6 _ (by omega) hFl]
      have : q - (K : ℚ) < ((⌊(q - (K : ℚ)) * 1000000⌋₊ : ℚ) + 1) / 10 ^ 6 := by
        rw [lt_div_iff₀ (by norm_num)]; linarith
      rw [add_div] at this
      linarith
    · constructor
      · intro h; cases h
      · rintro ⟨k, hk⟩
        exfalso
        have : K = k := by rw [← hK, hk]; exact Nat.floor_natCast k
        rw [this, hk] at hf
        simp at hf
  · have hq : q = (K : ℚ) := by linarith
    have ht := tokenize_of_splits (render_words (K / 3600) (K / 60 % 60) (K % 60))
    refine ⟨_, _, by unfold renderDuration; simp only [hK]; rw [if_pos hlt, if_neg hf, List.append_nil], by unfold readDuration; rw [ht], ?_, ?_, _, _, _, _, ht, hm, hmv, hs, hsv, ?_⟩
    · simp only [pad_val]; rw [hdq]; exact hfl
    · simp only [pad_val]; rw [hdq, ← hq]; linarith [show (0 : ℚ) < 1 / 10 ^ 6 by norm_num]
    · exact ⟨fun _ => ⟨K, hq⟩, fun _ => rfl⟩

/-- Longer durations are undefined behaviour. -/
theorem duration_undefined (q : ℚ) (hb : 2 ^ 31 ≤ q) : renderDuration q = none := by
  unfold renderDuration
  simp only
  rw [if_neg]
  rw [not_lt, Nat.le_floor_iff (by linarith [show (0 : ℚ) < 2 ^ 31 by norm_num])]
  push_cast
  exact hb

/-- **C69 (estimate).** In steps up to the expected number of steps, the tracing writer's estimate is the linear extrapolation of the
time spent so far, and zero in the last step. -/
theorem estimate (delta : ℚ) (maxSteps step : Nat) (h1 : 1 ≤ step) (h2 : step ≤ maxSteps) (h3 : maxSteps < 2 ^ 32) :
    ∃ r, remaining delta maxSteps step = some r ∧ (delta + r) * (step : ℚ) = delta * (maxSteps : ℚ) ∧ (step = maxSteps → r = 0) := by
  have hs : (step : ℚ) ≠ 0 := by exact_mod_cast (by omega : step ≠ 0)
  have hm : (maxSteps + 2 ^ 32 - step) % 2 ^ 32 = maxSteps - step := by omega
  refine ⟨_, by unfold remaining; rw [if_neg (by omega)], ?_, ?_⟩
  · rw [hm, Nat.cast_sub h2]
    field_simp
    ring
  · rintro rfl
    rw [hm]; simp

/-- **C69 (trace).** Before 2038, and as long as the estimated end of the simulation is before 2038, the writer prints time
remaining, time of arrival and current time in each step the period divides. -/
theorem trace_prints (period maxSteps : Nat) (start now : ℚ) (step : Nat) (h1 : 1 ≤ step) (h2 : step ≤ maxSteps) (h3 : maxSteps < 2 ^ 32) (hp : period ∣ step)
    (h0 : 0 ≤ start) (hn : start ≤ now) (hend : start * (step : ℚ) + (now - start) * (maxSteps : ℚ) < 2 ^ 31 * (step : ℚ)) :
    ∃ rs eta t, trace period maxSteps start now step = some (some (rs, eta, t)) ∧
      (∃ r x y, readDuration rs = some x ∧ x ≤ r ∧ r < x + 1 / 10 ^ 6 ∧ (now - start + r) * (step : ℚ) = (now - start) * (maxSteps : ℚ) ∧
        readDuration eta = some y ∧ y ≤ now + r ∧ now + r < y + 1 / 10 ^ 6) ∧
      (∃ x, readDuration t = some x ∧ x ≤ now ∧ now < x + 1 / 10 ^ 6) := by
  obtain ⟨r, q1, q2, -⟩ := estimate (now - start) maxSteps step h1 h2 h3
  have hs : (0 : ℚ) < (step : ℚ) := by exact_mod_cast h1
  have hms : (step : ℚ) ≤ (maxSteps : ℚ) := by exact_mod_cast h2
  have hr0 : 0 ≤ r := by
    by_contra hneg
    have h5 : (now - start) * (step : ℚ) ≤ (now - start) * (maxSteps : ℚ) := mul_le_mul_of_nonneg_left hms (by linarith)
    have h6 : r * (step : ℚ) < 0 := mul_neg_of_neg_of_pos (by linarith) hs
    rw [add_mul] at q2
    linarith
  have hnr : now + r < 2 ^ 31 := by
    by_contra hge
    have h5 : (2 : ℚ) ^ 31 * (step : ℚ) ≤ (now + r) * (step : ℚ) := mul_le_mul_of_nonneg_right (by linarith) hs.le
    have : (now + r) * (step : ℚ) = start * (step : ℚ) + (now - start + r) * (step : ℚ) := by ring
    rw [this, q2] at h5
    linarith
  obtain ⟨t1, x1, a1, a2, a3, a4, -⟩ := durations_partial r hr0 (by linarith)
  obtain ⟨t2, x2, b1, b2, b3, b4, -⟩ := durations_partial (now + r) (by linarith) hnr
  obtain ⟨t3, x3, c1, c2, c3, c4, -⟩ := durations_partial now (by linarith) (by linarith)
  refine ⟨t1, t2, t3, ?_, ⟨r, x1, x2, a2, a3, a4, q2, b2, b3, b4⟩, x3, c2, c3, c4⟩
  unfold trace
  rw [if_neg (by rw [not_not]; exact Nat.mod_eq_zero_of_dvd hp), q1]
  simp only [Option.bind_some, a1, b1, c1, Option.map_some]

/-- **C69, violated.** From 2^31 seconds after 1970 on, tracing is undefined behaviour. -/
theorem trace_2038 (period maxSteps : Nat) (start now : ℚ) (step : Nat) (hp : period ∣ step) (hn : 2 ^ 31 ≤ now) : trace period maxSteps start now step = none := by
  unfold trace
  rw [if_neg (by rw [not_not]; exact Nat.mod_eq_zero_of_dvd hp), duration_undefined now hn]
  cases remaining (now - start) maxSteps step with
  | none => rfl
  | some r =>
    simp only [Option.bind_some, Option.map_none]
    cases renderDuration r with
    | none => rfl
    | some _ =>
      simp only [Option.bind_some]
      cases renderDuration (now + r) <;> rfl

/-- **C69, violated.** In steps beyond the expected number (by default: 1), `maxSteps - step` wraps; tracing is undefined
behaviour once the simulation has been running for a second per step. -/
theorem trace_beyond (period maxSteps : Nat) (start now : ℚ) (step : Nat) (hp : period ∣ step) (h : maxSteps < step) (h32 : step ≤ 2 ^ 31)
    (hd : (step : ℚ) ≤ now - start) : trace period maxSteps start now step = none := by
  unfold trace
  have hm : (maxSteps + 2 ^ 32 - step) % 2 ^ 32 = maxSteps + 2 ^ 32 - step := Nat.mod_eq_of_lt (by omega)
  have hs : (0 : ℚ) < (step : ℚ) := by exact_mod_cast (by omega : 0 < step)
  rw [if_neg (by rw [not_not]; exact Nat.mod_eq_zero_of_dvd hp)]
  unfold remaining
  rw [if_neg (by omega), hm, Option.bind_some, duration_undefined]
  · rfl
  · have h2 : ((2 ^ 31 : Nat) : ℚ) ≤ ((maxSteps + 2 ^ 32 - step : Nat) : ℚ) := by exact_mod_cast (by omega : 2 ^ 31 ≤ maxSteps + 2 ^ 32 - step)
    rw [le_div_iff₀ hs]
    rw [Nat.cast_pow, Nat.cast_ofNat] at h2
    calc (2 : ℚ) ^ 31 * (step : ℚ) ≤ ((maxSteps + 2 ^ 32 - step : Nat) : ℚ) * (now - start) :=
          mul_le_mul h2 hd hs.le (by exact_mod_cast Nat.zero_le _)
      _ = _ := mul_comm _ _

/-! ## Examples -/

/-- `"get_x  3 4\r\n"`: two blanks in a row, a carriage return -/
example : handleInput (fun c => c == [103, 101, 116]) [103, 101, 116, 32, 32, 51, 32, 52, 13, 10, 10, 32, 10, 120, 10] =
    some [.invoke [103, 101, 116] [[51], [52]], .feedback msgNoCommand, .feedback (msgNotFound ++ [120]), .feedback msgTryHelp] := by decide +kernel

example : tokenize [32, 97, 98, 44, 32, 99] [32, 44] = some [[97, 98], [99]] := by decide +kernel

/-- the lines `a b` and `c` -/
example : handleInput (fun _ => true) ([([97], [[98]]), ([99], [])].flatMap (typeLine [13, 10])) = some [.invoke [97] [[98]], .invoke [99] []] :=
  commands _ _ (Or.inr rfl) _ (by
    intro c hc
    simp only [List.mem_cons, List.not_mem_nil, or_false] at hc
    rcases hc with rfl | rfl <;> simp [Typed, Word])

example : decodeRequest (request [103, 101, 116] [[51], [52, 53]]) = some ([103, 101, 116], [[51], [52, 53]]) := by decide +kernel
example : request [113] [] = [113, 32] ∧ decodeRequest (request [113] []) = some ([113], []) := by decide +kernel

/-- 2 × 2 cells at the origin: an empty line, then a line per row -/
example : ascii 1 { origin := fun _ => 0, dims := fun _ => 2 } (fun c => [(48 + 2 * c 1 + c 0).toNat]) 10 =
    some [10, 10, 48, 32, 49, 32, 10, 50, 32, 51, 32] := by decide +kernel
/-- at (1, 0): a single line -/
example : ascii 1 { origin := fun k => if k = 0 then 1 else 0, dims := fun _ => 2 } (fun c => [(48 + 2 * c 1 + c 0).toNat]) 10 =
    some [49, 32, 50, 32, 51, 32, 52, 32] := by decide +kernel

/-- `asciiName "p" 7 = "p.0007.ascii"` -/
example : asciiName [112] 7 = [112, 46, 48, 48, 48, 55, 46, 97, 115, 99, 105, 105] := by decide +kernel

/-- 3723.25 s are `01:02:03.250000` -/
example : renderDuration (3723 + 1 / 4) = some [48, 49, 58, 48, 50, 58, 48, 51, 46, 50, 53, 48, 48, 48, 48] := by decide +kernel
example : renderDuration 59 = some [48, 48, 58, 48, 48, 58, 53, 57] := by decide +kernel
example : remaining 10 8 2 = some 30 := by decide +kernel
/-- after 2 s, a tracing writer without arguments fails in step 2 -/
example : trace 1 1 1000 1002 2 = none := trace_beyond 1 1 1000 1002 2 (by simp) (by omega) (by norm_num) (by norm_num)

end LGD.C69
