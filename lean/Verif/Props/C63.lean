import Verif.Store.Selector

/-!
# C63: selectors give access to single members of cells, in both memory layouts
-/

namespace LGD.C63
open LGD.Sel

variable {B : Type}

/-- Selectors, as users create them: for scalars, for arrays, with user-defined conversions (`simple`, `simpleArray`), and for members of members (of any depth). `cell` is the
size of the cells, `s` the size of the member's elements, `A` their number; `load` and `save` tell what becomes of the bytes of a member, given the other side's bytes and the old
ones (`loadM` for arrays of cells, `loadS` for SoA grids). -/
inductive Made : Nat → Selector B → Nat → Nat → (List B → List B → List B) → (List B → List B → List B) → (List B → List B → List B) → Prop
  | scalar (cell s typ mp off : Nat) : 0 < s → mp + s ≤ cell → Made cell (selScalar cell s typ mp off) s 1 cp cp cp
  | array (cell s A typ mp off : Nat) : 0 < s → 0 < A → mp + A * s ≤ cell → Made cell (selArray cell s A typ mp off) s A cp cp cp
  | simple (cell s e typ mp off : Nat) (load save : List B → List B → List B) : 0 < s → mp + s ≤ cell → Fits load e s → Fits save s e →
      Made cell (selFilter s mp off (simpleFilter cell s e typ load save)) s 1 load load save
  | simpleArray (cell s e A typ mp off : Nat) (junk : List B) (load save : List B → List B → List B) : 0 < s → 0 < A → mp + A * s ≤ cell → junk.length = A * s →
      Fits load (A * e) (A * s) → Fits save (A * s) (A * e) →
      Made cell (selFilter s mp off (simpleArrayFilter cell s e A typ junk load save)) s A load (fun v _ => load v junk) save
  | nested (cell c typ mp off : Nat) (inner : Selector B) (s A : Nat) (loadM loadS save : List B → List B → List B) (dflt : List B) : Made c inner s A loadM loadS save → mp + c ≤ cell →
      dflt.length = c →
      Made cell ⟨mp, c, inner.externalSize, off, memberFilter (defaultFilter cell c typ) inner dflt⟩ c 1
        (fun e _ => splice dflt inner.memberPointer (loadM e (slice dflt inner.memberPointer (A * s))))
        (fun e t => splice t inner.memberPointer (loadM e (slice t inner.memberPointer (A * s))))
        (fun m t => save (slice m inner.memberPointer (A * s)) t)

/-- the constructors of `Selector` for nested members are covered -/
theorem nested_made (cell c s typ mp mp2 off : Nat) (dflt : List B) (hs : 0 < s) (h : mp2 + s ≤ c) (hc : mp + c ≤ cell) (hd : dflt.length = c) :
    Made cell (selNested cell c s typ mp mp2 off dflt) c 1 (fun e _ => splice dflt mp2 (cp e (slice dflt mp2 (1 * s)))) (fun e t => splice t mp2 (cp e (slice t mp2 (1 * s))))
      (fun m t => cp (slice m mp2 (1 * s)) t) := Made.nested cell c typ mp off _ s 1 cp cp cp dflt (Made.scalar c s typ mp2 0 hs h) hc hd

theorem made_ok {cell s A : Nat} {q : Selector B} {loadM loadS save : List B → List B → List B} (h : Made cell q s A loadM loadS save) :
    SelOK cell q s A loadM loadS save ∧ 0 < s := by
  induction h with
  | scalar cell s typ mp off hs h => exact ⟨⟨default_ok cell s typ hs, rfl, rfl, by simpa [selScalar] using h, Nat.one_pos⟩, hs⟩
  | array cell s A typ mp off hs hA h => exact ⟨⟨defaultArray_ok cell s A typ hs, by simp [selArray, defaultArrayFilter, Nat.mul_comm], rfl, h, hA⟩, hs⟩
  | simple cell s e typ mp off load save hs h hl hv => exact ⟨⟨simple_ok cell s e typ load save hs hl hv, rfl, rfl, by simpa [selFilter] using h, Nat.one_pos⟩, hs⟩
  | simpleArray cell s e A typ mp off junk load save hs hA h hj hl hv =>
    exact ⟨⟨simpleArray_ok cell s e A typ junk load save hs hj hl hv, rfl, rfl, h, hA⟩, hs⟩
  | nested cell c typ mp off inner s A loadM loadS save dflt hi hc hd ih =>
    obtain ⟨hi, hs⟩ := ih
    have h0 : 0 < A * s := Nat.mul_pos hi.pos hs
    have hf := hi.fit
    exact ⟨⟨member_ok (default_ok cell c typ (by omega)) rfl hi.filter hi.ext hi.fit hd, rfl, rfl, by simpa using hc, Nat.one_pos⟩, by omega⟩

/-- bytes of the member of the cell with index `c` in an array of cells -/
def aosMember (cell : Nat) (q : Selector B) (w : Nat) (cells : List B) (c : Nat) : List (Option B) := get cells (List.range' (c * cell + q.memberPointer) w)

/-- bytes of the member of the cell with index `c` in the memory of a SoA grid: element `j` is in the `j`-th of `A` consecutive arrays of `D` elements -/
def soaMember (D : Nat) (q : Selector B) (s A : Nat) (mem : List B) (c : Nat) : List (Option B) :=
  get mem ((List.range A).flatMap fun j => List.range' (D * q.memberOffset + (j * D + c) * s) s)

/-- bytes which belong to the `k`-th cell in a buffer -/
def bufferSlot (q : Selector B) (buf : List B) (k : Nat) : List (Option B) := get buf (List.range' (k * q.externalSize) q.externalSize)

variable {cell s A : Nat} {q : Selector B} {loadM loadS save : List B → List B → List B}

theorem mem_pairs {l : List Nat} {P : Nat × Nat → List Nat × List Nat} {k c : Nat} (h : l[k]? = some c) : P (c, k) ∈ l.zipIdx.map P :=
  List.mem_map.mpr ⟨(c, k), by rw [List.mem_zipIdx_iff_getElem?]; exact h, rfl⟩

theorem of_pairs {l : List Nat} {P : Nat × Nat → List Nat × List Nat} {p : List Nat × List Nat} (h : p ∈ l.zipIdx.map P) : ∃ k c, l[k]? = some c ∧ p = P (c, k) := by
  obtain ⟨⟨c, k⟩, h', rfl⟩ := List.mem_map.mp h
  rw [List.mem_zipIdx_iff_getElem?] at h'
  exact ⟨k, c, h', rfl⟩

/-- **C63 (saving, arrays of cells).** `saveMember` stores for the `k`-th cell of the region what `save` makes of the cell's member, and leaves the remainder of the buffer alone. -/
theorem save_aos (h : Made cell q s A loadM loadS save) (cells : List B) (runs : List (Nat × Nat)) (tgt : List B) (hr : ∀ r ∈ runs, (r.1 + r.2) * cell ≤ cells.length)
    (ht : (cellsOf runs).length * q.externalSize ≤ tgt.length) :
    ∃ r, checked q q.filter.typ (aosSave cell q cells runs .host tgt) = .ok r ∧ r.length = tgt.length ∧
      (∀ k c, (cellsOf runs)[k]? = some c → ∃ v old, aosMember cell q (A * s) cells c = v.map some ∧ bufferSlot q tgt k = old.map some ∧ bufferSlot q r k = (save v old).map some) ∧
      ∀ b, (cellsOf runs).length * q.externalSize ≤ b → r[b]? = tgt[b]? := by
  obtain ⟨r, e, t⟩ := aosSave_trans (made_ok h).1 cells runs tgt hr ht
  refine ⟨r, by rw [e]; simp [checked, Except.bind], t.len, fun k c hk => ?_, fun b hb => t.frame b fun p hp hbp => ?_⟩
  · have := t.vals _ (mem_pairs hk)
    simpa [aosMember, bufferSlot, aosA, extA] using this
  · obtain ⟨k, c, hk, rfl⟩ := of_pairs hp
    simp only [extA, mem_r] at hbp
    have hl : k < (cellsOf runs).length := by
      by_contra hc
      rw [List.getElem?_eq_none (by omega)] at hk; cases hk
    have := mul_step hl q.externalSize
    omega

/-- **C63 (saving, SoA grids).** The same for the memory of a SoA grid with extents `DIM_X * DIM_Y * DIM_Z = D`. -/
theorem save_soa (h : Made cell q s A loadM loadS save) (D : Nat) (mem : List B) (runs : List (Nat × Nat)) (tgt : List B) (hr : ∀ r ∈ runs, r.1 + r.2 ≤ D)
    (hm : D * q.memberOffset + A * D * s ≤ mem.length) (ht : (cellsOf runs).length * q.externalSize ≤ tgt.length) :
    ∃ r, checked q q.filter.typ (soaSave D q mem runs .host tgt) = .ok r ∧ r.length = tgt.length ∧
      (∀ k c, (cellsOf runs)[k]? = some c → ∃ v old, soaMember D q s A mem c = v.map some ∧ bufferSlot q tgt k = old.map some ∧ bufferSlot q r k = (save v old).map some) ∧
      ∀ b, (cellsOf runs).length * q.externalSize ≤ b → r[b]? = tgt[b]? := by
  obtain ⟨r, e, t⟩ := soaSave_trans (made_ok h).1 D mem runs tgt hr hm ht
  refine ⟨r, by rw [e]; simp [checked, Except.bind], t.len, fun k c hk => ?_, fun b hb => t.frame b fun p hp hbp => ?_⟩
  · have := t.vals _ (mem_pairs hk)
    simpa [soaMember, bufferSlot, soaA, extA] using this
  · obtain ⟨k, c, hk, rfl⟩ := of_pairs hp
    simp only [extA, mem_r] at hbp
    have hl : k < (cellsOf runs).length := by
      by_contra hc
      rw [List.getElem?_eq_none (by omega)] at hk; cases hk
    have := mul_step hl q.externalSize
    omega

/-- **C63 (loading, arrays of cells).** `loadMember` changes the member of the `k`-th cell of the region to what `loadM` makes of the `k`-th part of the buffer, and no other
byte of the grid. -/
theorem load_aos (h : Made cell q s A loadM loadS save) (cells : List B) (runs : List (Nat × Nat)) (src : List B) (hr : ∀ r ∈ runs, (r.1 + r.2) * cell ≤ cells.length)
    (ht : (cellsOf runs).length * q.externalSize ≤ src.length) (hn : (cellsOf runs).Nodup) :
    ∃ r, checked q q.filter.typ (aosLoad cell q cells runs .host src) = .ok r ∧ r.length = cells.length ∧
      (∀ k c, (cellsOf runs)[k]? = some c → ∃ v old, bufferSlot q src k = v.map some ∧ aosMember cell q (A * s) cells c = old.map some ∧
        aosMember cell q (A * s) r c = (loadM v old).map some) ∧
      ∀ b, (∀ c ∈ cellsOf runs, b ∉ List.range' (c * cell + q.memberPointer) (A * s)) → r[b]? = cells[b]? := by
  obtain ⟨r, e, t⟩ := aosLoad_trans (made_ok h).1 cells runs src hr ht hn
  refine ⟨r, by rw [e]; simp [checked, Except.bind], t.len, fun k c hk => ?_, fun b hb => t.frame b fun p hp hbp => ?_⟩
  · have := t.vals _ (mem_pairs hk)
    simpa [aosMember, bufferSlot, aosA, extA] using this
  · obtain ⟨k, c, hk, rfl⟩ := of_pairs hp
    simp only [aosA, Nat.zero_add] at hbp
    exact hb c (List.mem_of_getElem? hk) hbp

/-- **C63 (loading, SoA grids).** -/
theorem load_soa (h : Made cell q s A loadM loadS save) (D : Nat) (mem : List B) (runs : List (Nat × Nat)) (src : List B) (hr : ∀ r ∈ runs, r.1 + r.2 ≤ D)
    (hm : D * q.memberOffset + A * D * s ≤ mem.length) (ht : (cellsOf runs).length * q.externalSize ≤ src.length) (hn : (cellsOf runs).Nodup) :
    ∃ r, checked q q.filter.typ (soaLoad D q mem runs .host src) = .ok r ∧ r.length = mem.length ∧
      (∀ k c, (cellsOf runs)[k]? = some c → ∃ v old, bufferSlot q src k = v.map some ∧ soaMember D q s A mem c = old.map some ∧
        soaMember D q s A r c = (loadS v old).map some) ∧
      ∀ b, (∀ c ∈ cellsOf runs, ∀ j < A, b ∉ List.range' (D * q.memberOffset + (j * D + c) * s) s) → r[b]? = mem[b]? := by
  obtain ⟨r, e, t⟩ := soaLoad_trans (made_ok h).1 D mem runs src hr hm ht hn
  refine ⟨r, by rw [e]; simp [checked, Except.bind], t.len, fun k c hk => ?_, fun b hb => t.frame b fun p hp hbp => ?_⟩
  · have := t.vals _ (mem_pairs hk)
    simpa [soaMember, bufferSlot, soaA, extA] using this
  · obtain ⟨k, c, hk, rfl⟩ := of_pairs hp
    simp only [soaA, List.mem_flatMap, List.mem_range] at hbp
    obtain ⟨j, hj, hbp⟩ := hbp
    exact hb c (List.mem_of_getElem? hk) j hj hbp

/-- a buffer is determined by its slots and the bytes behind them -/
theorem buffer_ext {a b : List B} {e n : Nat} (hs : ∀ k < n, get a (List.range' (k * e) e) = get b (List.range' (k * e) e)) (hf : ∀ x, n * e ≤ x → a[x]? = b[x]?) : a = b := by
  apply List.ext_getElem?
  intro x
  by_cases hx : n * e ≤ x
  · exact hf x hx
  · have he : 0 < e := by
      rcases Nat.eq_zero_or_pos e with rfl | h
      · omega
      · exact h
    have hk : x / e < n := Nat.div_lt_of_lt_mul (by rw [Nat.mul_comm]; omega)
    have h1 := Nat.div_add_mod x e
    have h2 := Nat.mod_lt x he
    have := congrArg (·[x % e]?) (hs (x / e) hk)
    simp only [Sel.get, List.getElem?_map] at this
    rw [range'_get h2] at this
    simp only [Option.map_some, Option.some.injEq] at this
    rwa [Nat.mul_comm, h1] at this

/-- **C63 (layouts agree).** If an array of cells and a SoA grid hold the same values of the member, then saving yields the same buffer. -/
theorem save_agree (h : Made cell q s A loadM loadS save) (cells : List B) (runs : List (Nat × Nat)) (tgt : List B) (hr : ∀ r ∈ runs, (r.1 + r.2) * cell ≤ cells.length)
    (ht : (cellsOf runs).length * q.externalSize ≤ tgt.length)
    (D : Nat) (mem : List B) (runs' : List (Nat × Nat)) (hr' : ∀ r ∈ runs', r.1 + r.2 ≤ D) (hm : D * q.memberOffset + A * D * s ≤ mem.length)
    (hl : (cellsOf runs').length = (cellsOf runs).length)
    (hsame : ∀ k c c' : Nat, (cellsOf runs)[k]? = some c → (cellsOf runs')[k]? = some c' → aosMember cell q (A * s) cells c = soaMember D q s A mem c') :
    checked q q.filter.typ (aosSave cell q cells runs .host tgt) = checked q q.filter.typ (soaSave D q mem runs' .host tgt) := by
  obtain ⟨r, e, _, v, f⟩ := save_aos h cells runs tgt hr ht
  obtain ⟨r', e', _, v', f'⟩ := save_soa h D mem runs' tgt hr' hm (by rw [hl]; exact ht)
  rw [e, e']
  congr 1
  refine buffer_ext (e := q.externalSize) (n := (cellsOf runs).length) (fun k hk => ?_) fun x hx => by rw [f x hx, f' x (by rw [hl]; exact hx)]
  have h1 : (cellsOf runs)[k]? = some (cellsOf runs)[k] := List.getElem?_eq_getElem hk
  have h2 : (cellsOf runs')[k]? = some ((cellsOf runs')[k]'(by omega)) := List.getElem?_eq_getElem (by omega)
  obtain ⟨a, o, a1, a2, a3⟩ := v k _ h1
  obtain ⟨a', o', b1, b2, b3⟩ := v' k _ h2
  have ea : a = a' := map_some_inj (by rw [← a1, ← b1]; exact hsame k _ _ h1 h2)
  have eo : o = o' := map_some_inj (by rw [← a2, ← b2])
  subst ea; subst eo
  unfold bufferSlot at a3 b3
  rw [a3, b3]

/-- **C63 (round trip).** Data loaded into the member, and saved again, is unchanged -- if `save` undoes `load`. -/
theorem load_save (h : Made cell q s A loadM loadS save) (hid : ∀ v old b, save (loadM v old) b = v) (cells : List B) (runs : List (Nat × Nat)) (src tgt : List B)
    (hr : ∀ r ∈ runs, (r.1 + r.2) * cell ≤ cells.length) (hsl : src.length = (cellsOf runs).length * q.externalSize) (htl : tgt.length = src.length) (hn : (cellsOf runs).Nodup) :
    ∃ m, checked q q.filter.typ (aosLoad cell q cells runs .host src) = .ok m ∧ checked q q.filter.typ (aosSave cell q m runs .host tgt) = .ok src := by
  obtain ⟨m, e, l, v, _⟩ := load_aos h cells runs src hr (by omega) hn
  obtain ⟨r, e', l', v', f'⟩ := save_aos h m runs tgt (by rw [l]; exact hr) (by omega)
  refine ⟨m, e, ?_⟩
  rw [e']
  congr 1
  refine buffer_ext (e := q.externalSize) (n := (cellsOf runs).length) (fun k hk => ?_) fun x hx => by
    rw [List.getElem?_eq_none (by omega), List.getElem?_eq_none (by omega)]
  have h1 : (cellsOf runs)[k]? = some (cellsOf runs)[k] := List.getElem?_eq_getElem hk
  obtain ⟨a, o, a1, a2, a3⟩ := v k _ h1
  obtain ⟨b, o', b1, b2, b3⟩ := v' k _ h1
  have : b = loadM a o := map_some_inj (by rw [← b1, ← a3])
  subst this
  rw [hid] at b3
  unfold bufferSlot at a1 b3
  rw [b3, a1]

/-- **C63 (round trip).** The same for SoA grids. -/
theorem load_save_soa (h : Made cell q s A loadM loadS save) (hid : ∀ v old b, save (loadS v old) b = v) (D : Nat) (mem : List B) (runs : List (Nat × Nat)) (src tgt : List B)
    (hr : ∀ r ∈ runs, r.1 + r.2 ≤ D) (hm : D * q.memberOffset + A * D * s ≤ mem.length) (hsl : src.length = (cellsOf runs).length * q.externalSize)
    (htl : tgt.length = src.length) (hn : (cellsOf runs).Nodup) :
    ∃ m, checked q q.filter.typ (soaLoad D q mem runs .host src) = .ok m ∧ checked q q.filter.typ (soaSave D q m runs .host tgt) = .ok src := by
  obtain ⟨m, e, l, v, _⟩ := load_soa h D mem runs src hr hm (by omega) hn
  obtain ⟨r, e', l', v', f'⟩ := save_soa h D m runs tgt hr (by rw [l]; exact hm) (by omega)
  refine ⟨m, e, ?_⟩
  rw [e']
  congr 1
  refine buffer_ext (e := q.externalSize) (n := (cellsOf runs).length) (fun k hk => ?_) fun x hx => by
    rw [List.getElem?_eq_none (by omega), List.getElem?_eq_none (by omega)]
  have h1 : (cellsOf runs)[k]? = some (cellsOf runs)[k] := List.getElem?_eq_getElem hk
  obtain ⟨a, o, a1, a2, a3⟩ := v k _ h1
  obtain ⟨b, o', b1, b2, b3⟩ := v' k _ h1
  have : b = loadS a o := map_some_inj (by rw [← b1, ← a3])
  subst this
  rw [hid] at b3
  unfold bufferSlot at a1 b3
  rw [b3, a1]

/-- **C63 (layout).** The search in the list of registered members finds the member, if member pointers are unique. -/
theorem offset_found (ms : List Reg) (hn : ms.Nodup) (r : Nat) (x : Reg) (h : ms[r]? = some x) : memberPtrToOffset ms x = .ok (offsetAt ms r) := by
  have hr : r < ms.length := by
    by_contra hc
    rw [List.getElem?_eq_none (by omega)] at h; cases h
  unfold memberPtrToOffset
  have : ∀ n, r < n → n ≤ ms.length → offsetOf ms x n = .ok (offsetAt ms r) := by
    intro n
    induction n with
    | zero => omega
    | succ n ih =>
      intro h1 h2
      unfold offsetOf
      by_cases hx : ms[n]? = some x
      · rw [if_pos hx]
        have : n = r := (List.getElem?_inj (by omega) hn).mp (hx.trans h.symm)
        rw [this]
      · rw [if_neg hx]
        refine ih ?_ (by omega)
        rcases Nat.lt_or_eq_of_le (Nat.lt_succ_iff.mp h1) with h' | h'
        · exact h'
        · subst h'; exact absurd h hx
  exact this _ hr (Nat.le_refl _)

/-- **C63 (layout).** A member which was not registered is rejected. -/
theorem offset_unknown (ms : List Reg) (x : Reg) (h : x ∉ ms) : memberPtrToOffset ms x = .error .invalidArgument := by
  unfold memberPtrToOffset
  generalize ms.length = n
  induction n with
  | zero => rfl
  | succ n ih =>
    unfold offsetOf
    rw [if_neg fun hx => h (List.mem_of_getElem? hx), ih]

theorem offsetAt_succ (ms : List Reg) (r : Nat) (x : Reg) (h : ms[r]? = some x) : offsetAt ms (r + 1) = offsetAt ms r + x.size * x.arity := by
  unfold offsetAt
  rw [List.take_add_one, h]
  simp

theorem offsetAt_mono (ms : List Reg) {a b : Nat} (h : a ≤ b) : offsetAt ms a ≤ offsetAt ms b := by
  induction b with
  | zero => rw [Nat.le_zero.mp h]
  | succ b ih =>
    rcases Nat.lt_or_eq_of_le h with h' | h'
    · refine (ih (by omega)).trans ?_
      unfold offsetAt
      rw [List.take_add_one]
      simp
    · rw [h']

/-- **C63 (layout).** In a SoA grid, bytes of different members, cells, or array elements never overlap, and none is outside of the memory of
`aggregated_member_size * DIM_X * DIM_Y * DIM_Z` bytes. So loading one member doesn't alter another one. -/
theorem layout (ms : List Reg) (D r r' : Nat) (x y : Reg) (hx : ms[r]? = some x) (hy : ms[r']? = some y) (c c' j j' : Nat) (hc : c < D) (hc' : c' < D) (hj : j < x.arity)
    (hj' : j' < y.arity) (b : Nat) (hb : b ∈ List.range' (D * offsetAt ms r + (j * D + c) * x.size) x.size) :
    b < D * offsetAt ms ms.length ∧ (b ∈ List.range' (D * offsetAt ms r' + (j' * D + c') * y.size) y.size → r = r' ∧ c = c' ∧ j = j') := by
  have key : ∀ (r : Nat) (x : Reg) (c j : Nat), ms[r]? = some x → c < D → j < x.arity → ∀ b, b ∈ List.range' (D * offsetAt ms r + (j * D + c) * x.size) x.size →
      D * offsetAt ms r ≤ b ∧ b < D * offsetAt ms (r + 1) := by
    intro r x c j hx hc hj b hb
    rw [mem_r] at hb
    have h1 := mul_step hj D
    have h2 := mul_step (show j * D + c < x.arity * D by omega) x.size
    rw [offsetAt_succ ms r x hx, Nat.mul_add, show D * (x.size * x.arity) = x.arity * D * x.size by ring]
    omega
  have hlt : ∀ (r : Nat) (x : Reg), ms[r]? = some x → r < ms.length := fun r x h => by
    by_contra hc
    rw [List.getElem?_eq_none (by omega)] at h; cases h
  have k1 := key r x c j hx hc hj b hb
  refine ⟨lt_of_lt_of_le k1.2 (Nat.mul_le_mul_left D (offsetAt_mono ms (hlt r x hx))), fun hb' => ?_⟩
  have k2 := key r' y c' j' hy hc' hj' b hb'
  have hrr : r = r' := by
    by_contra hrr
    rcases Nat.lt_or_gt_of_ne hrr with h | h
    · have := Nat.mul_le_mul_left D (offsetAt_mono ms (show r + 1 ≤ r' from h)); omega
    · have := Nat.mul_le_mul_left D (offsetAt_mono ms (show r' + 1 ≤ r from h)); omega
  subst hrr
  have : x = y := by rw [hx] at hy; exact Option.some.inj hy
  subst this
  rw [mem_r] at hb hb'
  have := div_unique hc hc' (elem_eq hb hb')
  exact ⟨rfl, this.2, this.1⟩

/-- **C63 (errors).** A selector for another type of externals is rejected, whatever the grid does. -/
theorem wrong_type (q : Selector B) (typ : Nat) (h : q.filter.typ ≠ typ) (r : Except Err (List B × Nat)) : checked q typ r = .error .invalidArgument := by simp [checked, h]

/-- **C63 (errors).** Without CUDA, default selectors refuse buffers in device memory. -/
theorem device (cell s A typ mp off : Nat) (cells : List B) (r : Nat × Nat) (runs : List (Nat × Nat)) (buf : List B) :
    aosSave cell (selScalar cell s typ mp off) cells (r :: runs) .device buf = .error .logicError ∧
    aosSave cell (selArray cell s A typ mp off) cells (r :: runs) .device buf = .error .logicError ∧
    aosLoad cell (selScalar cell s typ mp off) cells (r :: runs) .device buf = .error .logicError ∧
    aosLoad cell (selArray cell s A typ mp off) cells (r :: runs) .device buf = .error .logicError := by
  refine ⟨?_, ?_, ?_, ?_⟩ <;> simp [aosSave, aosLoad, Selector.copyMemberOut, Selector.copyMemberIn, selScalar, selArray, defaultFilter, defaultArrayFilter, checkLoc] <;> rfl

/-- **C63 (negation).** Nested members: loading into an array of cells replaces the *whole* member by a default-constructed one with the new value, its other parts are lost;
loading the same data into a SoA grid retains them. -/
theorem nested_load (cell c s typ mp mp2 off : Nat) (dflt : List B) (hs : 0 < s) (h : mp2 + s ≤ c) (hc : mp + c ≤ cell) (hd : dflt.length = c)
    (cells : List B) (runs : List (Nat × Nat)) (src : List B) (hr : ∀ r ∈ runs, (r.1 + r.2) * cell ≤ cells.length) (ht : (cellsOf runs).length * s ≤ src.length)
    (hn : (cellsOf runs).Nodup) (k i : Nat) (hk : (cellsOf runs)[k]? = some i) :
    ∃ r v, checked (selNested cell c s typ mp mp2 off dflt) typ (aosLoad cell (selNested cell c s typ mp mp2 off dflt) cells runs .host src) = .ok r ∧
      get src (List.range' (k * s) s) = v.map some ∧ get r (List.range' (i * cell + mp) c) = (dflt.take mp2 ++ v ++ dflt.drop (mp2 + s)).map some := by
  obtain ⟨r, e, _, hv, _⟩ := load_aos (nested_made cell c s typ mp mp2 off dflt hs h hc hd) cells runs src hr ht hn
  obtain ⟨v, old, h1, _, h3⟩ := hv k i hk
  have hl := get_len h1
  rw [List.length_range'] at hl
  refine ⟨r, v, e, h1, ?_⟩
  simp only [aosMember, splice, cp, one_mul] at h3
  rw [show v.length = s from hl] at h3
  exact h3

/-- Example: cells of 4 bytes consist of one byte and a member with 2 bytes (`a`, `b`; 7 and 8 by default), then another byte. Loading `a` (90, 91) resets `b` in an array of cells. -/
example : checked (selNested 4 2 1 0 1 0 1 [7, 8]) 0 (aosLoad 4 (selNested 4 2 1 0 1 0 1 [7, 8]) [10, 11, 12, 13, 20, 21, 22, 23] [(0, 2)] .host [90, 91])
    = .ok [10, 90, 8, 13, 20, 91, 8, 23] := by decide

/-- The same data in a SoA grid: `b` is retained. -/
example : checked (selNested 4 2 1 0 1 0 1 [7, 8]) 0 (soaLoad 2 (selNested 4 2 1 0 1 0 1 [7, 8]) [10, 20, 11, 12, 21, 22, 13, 23] [(0, 2)] .host [90, 91])
    = .ok [10, 20, 90, 12, 91, 22, 13, 23] := by decide

/-- Example: an array member with two elements of 2 bytes, at offset 1 in cells of 6 bytes; second and third of three cells -/
example : checked (selArray 6 2 2 5 1 0) 5 (aosSave 6 (selArray 6 2 2 5 1 0) [0, 1, 2, 3, 4, 5, 10, 11, 12, 13, 14, 15, 20, 21, 22, 23, 24, 25] [(1, 2)] .host [99, 99, 99, 99, 99, 99, 99, 99, 99])
    = .ok [11, 12, 13, 14, 21, 22, 23, 24, 99] := by decide

/-- the same member in a SoA grid with memory for 3 cells: first elements, then second elements -/
example : checked (selArray 6 2 2 5 1 1) 5 (soaSave 3 (selArray 6 2 2 5 1 1) [0, 10, 20, 1, 2, 11, 12, 21, 22, 3, 4, 13, 14, 23, 24, 5, 15, 25] [(1, 2)] .host
    [99, 99, 99, 99, 99, 99, 99, 99, 99]) = .ok [11, 12, 13, 14, 21, 22, 23, 24, 99] := by decide

/-- **C63 (negation).** A filter which sets only part of an array member (here: adds to it) works on the old values in arrays of cells, but on uninitialized memory in SoA grids. -/
example (junk : Nat) :
    let q : Selector Nat := selFilter 1 0 0 (simpleArrayFilter 1 1 1 1 0 [junk] (fun v old => List.zipWith (· + ·) v old) fun m _ => m)
    checked q 0 (aosLoad 1 q [10, 20] [(0, 2)] .host [1, 2]) = .ok [11, 22] ∧ checked q 0 (soaLoad 2 q [10, 20] [(0, 2)] .host [1, 2]) = .ok [1 + junk, 2 + junk] := by
  constructor <;> rfl

/-- Example: offsets of three members -/
example : memberPtrToOffset [⟨4, 1, 0, 0⟩, ⟨8, 3, 1, 8⟩, ⟨1, 1, 2, 32⟩] ⟨1, 1, 2, 32⟩ = .ok 28 := by decide

/-- Example of a selector with conversion (`load` doubles, `save` halves) to which the round trip applies: 1, 2, 3 -> 2, 4, 6 -/
example : checked (selFilter 1 0 0 (simpleFilter 1 1 1 0 (fun v _ => v.map (2 * ·)) fun m _ => m.map (· / 2))) 0
    (aosLoad 1 (selFilter 1 0 0 (simpleFilter 1 1 1 0 (fun v _ => v.map (2 * ·)) fun m _ => m.map (· / 2))) [0, 0, 0, 0] [(0, 1), (2, 2)] .host [1, 2, 3]) = .ok [2, 0, 4, 6] := by decide

end LGD.C63
