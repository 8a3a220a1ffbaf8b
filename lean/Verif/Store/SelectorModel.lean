import Mathlib.Data.List.Basic

/-!
# Selectors and filters: access to single members of cells

Memory consists of bytes (type `B`); pointers are indices into a memory. Source and target are different memories. Members are trivially copyable, so `=` and `std::copy` copy
bytes. A member pointer is the offset of the member within the cell, `cell` stands for `sizeof(CELL)`. User-defined conversions (`load`, `save` of simple filters) are functions
of the source's bytes and of the old bytes at the target, as they are called with a pointer to the latter. CUDA filters are not modelled (code without `__CUDACC__`).
-/

namespace LGD.Sel

/-- why a call does not return: undefined behaviour (access outside of a memory), `std::logic_error`, `std::invalid_argument` -/
inductive Err where
  | undefined
  | logicError
  | invalidArgument
  deriving DecidableEq, Repr

/-- `MemoryLocation::Location` (memorylocation.h:10-14) -/
inductive Loc where
  | host
  | device
  deriving DecidableEq, Repr

variable {B : Type}

/-- read `s` bytes -/
def rd (m : List B) (a s : Nat) : Except Err (List B) := if a + s ≤ m.length then .ok ((m.drop a).take s) else .error .undefined

/-- write bytes -/
def wr (m : List B) (a : Nat) (v : List B) : Except Err (List B) :=
  if a + v.length ≤ m.length then .ok (m.take a ++ v ++ m.drop (a + v.length)) else .error .undefined

/-- assignment of an element of `s` bytes -/
def copyElem (src : List B) (sa : Nat) (tgt : List B) (ta s : Nat) : Except Err (List B) := (rd src sa s).bind fun v => wr tgt ta v

/-- `for (i = 0; i < num; ++i)` -/
def loop (num : Nat) (body : Nat → List B → Except Err (List B)) (m : List B) : Except Err (List B) := (List.range num).foldlM (fun m i => body i m) m

/-- type of the four virtual functions of `FilterBase` (filterbase.h:155-187): source, its offset and location, target, its offset and location, `num`, and `stride` or
`memberPointer` -/
abbrev Op (B : Type) := List B → Nat → Loc → List B → Nat → Loc → Nat → Nat → Except Err (List B)

/-- `FilterBase` (filterbase.h:126-191); `typ` identifies the type of externals -/
structure Filter (B : Type) where
  sizeOf : Nat
  arity : Nat
  typ : Nat
  streakIn : Op B
  streakOut : Op B
  memberIn : Op B
  memberOut : Op B

/-- `checkMemoryLocations` (defaultfilter.h:74-88, defaultarrayfilter.h:88-102) -/
def checkLoc (sl tl : Loc) : Except Err Unit := if sl = .device ∨ tl = .device then .error .logicError else .ok ()

/-- `DefaultFilter<CELL, MEMBER, MEMBER>` (defaultfilter.h:12-89); `s = sizeof(MEMBER)` -/
def defaultFilter (cell s typ : Nat) : Filter B where
  sizeOf := s
  arity := 1
  typ := typ
  streakIn src sp sl tgt tp tl num _ := (checkLoc sl tl).bind fun _ => loop num (fun i m => copyElem src (sp + i * s) m (tp + i * s) s) tgt
  streakOut src sp sl tgt tp tl num _ := (checkLoc sl tl).bind fun _ => loop num (fun i m => copyElem src (sp + i * s) m (tp + i * s) s) tgt
  memberIn src sp sl tgt tp tl num mp := (checkLoc sl tl).bind fun _ => loop num (fun i m => copyElem src (sp + i * s) m (tp + i * cell + mp) s) tgt
  memberOut src sp sl tgt tp tl num mp := (checkLoc sl tl).bind fun _ => loop num (fun i m => copyElem src (sp + i * cell + mp) m (tp + i * s) s) tgt

/-- `DefaultArrayFilter<CELL, MEMBER, MEMBER, ARITY>` (defaultarrayfilter.h:12-103, arrayfilter.h:19-22, 43-46) -/
def defaultArrayFilter (cell s arity typ : Nat) : Filter B where
  sizeOf := arity * s
  arity := arity
  typ := typ
  streakIn src sp sl tgt tp tl num stride := (checkLoc sl tl).bind fun _ =>
    loop num (fun i m => loop arity (fun j m => copyElem src (sp + (i * arity + j) * s) m (tp + (j * stride + i) * s) s) m) tgt
  streakOut src sp sl tgt tp tl num stride := (checkLoc sl tl).bind fun _ =>
    loop num (fun i m => loop arity (fun j m => copyElem src (sp + (j * stride + i) * s) m (tp + (i * arity + j) * s) s) m) tgt
  memberIn src sp sl tgt tp tl num mp := (checkLoc sl tl).bind fun _ =>
    loop num (fun i m => loop arity (fun j m => copyElem src (sp + (i * arity + j) * s) m (tp + i * cell + mp + j * s) s) m) tgt
  memberOut src sp sl tgt tp tl num mp := (checkLoc sl tl).bind fun _ =>
    loop num (fun i m => loop arity (fun j m => copyElem src (sp + i * cell + mp + j * s) m (tp + (i * arity + j) * s) s) m) tgt

/-- simple filters don't check locations: code on the host dereferences pointers to device memory -/
def hostOnly (sl tl : Loc) (num : Nat) (r : Except Err (List B)) : Except Err (List B) := if (sl = .device ∨ tl = .device) ∧ 0 < num then .error .undefined else r

/-- call a conversion for `s` bytes at the source and `t` bytes at the target -/
def convElem (f : List B → List B → List B) (src : List B) (sa s : Nat) (tgt : List B) (ta t : Nat) : Except Err (List B) :=
  (rd src sa s).bind fun v => (rd tgt ta t).bind fun old => wr tgt ta (f v old)

/-- `SimpleFilter` (simplefilter.h:13-76); `e = sizeof(EXTERNAL)` -/
def simpleFilter (cell s e typ : Nat) (load save : List B → List B → List B) : Filter B where
  sizeOf := e
  arity := 1
  typ := typ
  streakIn src sp sl tgt tp tl num _ := hostOnly sl tl num (loop num (fun i m => convElem load src (sp + i * e) e m (tp + i * s) s) tgt)
  streakOut src sp sl tgt tp tl num _ := hostOnly sl tl num (loop num (fun i m => convElem save src (sp + i * s) s m (tp + i * e) e) tgt)
  memberIn src sp sl tgt tp tl num mp := hostOnly sl tl num (loop num (fun i m => convElem load src (sp + i * e) e m (tp + i * cell + mp) s) tgt)
  memberOut src sp sl tgt tp tl num mp := hostOnly sl tl num (loop num (fun i m => convElem save src (sp + i * cell + mp) s m (tp + i * e) e) tgt)

/-- `SimpleArrayFilter` (simplearrayfilter.h:12-80); `junk` is the content of the uninitialized buffers (simplearrayfilter.h:28, 46) -/
def simpleArrayFilter (cell s e arity typ : Nat) (junk : List B) (load save : List B → List B → List B) : Filter B where
  sizeOf := arity * e
  arity := arity
  typ := typ
  streakIn src sp sl tgt tp tl num stride := hostOnly sl tl num (loop num (fun i m => (rd src (sp + i * arity * e) (arity * e)).bind fun v =>
    loop arity (fun j m => copyElem (load v junk) (j * s) m (tp + (i + j * stride) * s) s) m) tgt)
  streakOut src sp sl tgt tp tl num stride := hostOnly sl tl num (loop num (fun i m =>
    (loop arity (fun j b => copyElem src (sp + (i + j * stride) * s) b (j * s) s) junk).bind fun buf => convElem save buf 0 (arity * s) m (tp + i * arity * e) (arity * e)) tgt)
  memberIn src sp sl tgt tp tl num mp :=
    hostOnly sl tl num (loop num (fun i m => convElem load src (sp + i * arity * e) (arity * e) m (tp + i * cell + mp) (arity * s)) tgt)
  memberOut src sp sl tgt tp tl num mp :=
    hostOnly sl tl num (loop num (fun i m => convElem save src (sp + i * cell + mp) (arity * s) m (tp + i * arity * e) (arity * e)) tgt)

/-- members of `Selector` (selector.h:500-505), without the name -/
structure Selector (B : Type) where
  memberPointer : Nat
  memberSize : Nat
  externalSize : Nat
  memberOffset : Nat
  filter : Filter B

/-- `copyMemberIn` (selector.h:406-414) -/
def Selector.copyMemberIn (q : Selector B) (src : List B) (sp : Nat) (sl : Loc) (tgt : List B) (tp : Nat) (tl : Loc) (num : Nat) : Except Err (List B) :=
  q.filter.memberIn src sp sl tgt tp tl num q.memberPointer

/-- `copyMemberOut` (selector.h:420-428) -/
def Selector.copyMemberOut (q : Selector B) (src : List B) (sp : Nat) (sl : Loc) (tgt : List B) (tp : Nat) (tl : Loc) (num : Nat) : Except Err (List B) :=
  q.filter.memberOut src sp sl tgt tp tl num q.memberPointer

/-- `MemberFilter<CELL, MEMBER>` (memberfilter.h:40-275); `dflt` is a default-constructed `MEMBER`, with which `std::vector<MEMBER> buf(num)` is filled -/
def memberFilter (outer : Filter B) (inner : Selector B) (dflt : List B) : Filter B where
  sizeOf := inner.externalSize
  arity := inner.filter.arity
  typ := inner.filter.typ
  streakIn src sp sl tgt tp tl num _ := inner.copyMemberIn src sp sl tgt tp tl num
  streakOut src sp sl tgt tp tl num _ := inner.copyMemberOut src sp sl tgt tp tl num
  memberIn src sp sl tgt tp tl num mp :=
    (inner.copyMemberIn src sp sl (List.replicate num dflt).flatten 0 .host num).bind fun buf => outer.memberIn buf 0 .host tgt tp tl num mp
  memberOut src sp sl tgt tp tl num mp :=
    (outer.memberOut src sp sl (List.replicate num dflt).flatten 0 .host num mp).bind fun buf => inner.copyMemberOut buf 0 .host tgt tp tl num

/-- constructor for scalar members (selector.h:205-222, defaultfilterfactory.h:53-58) -/
def selScalar (cell s typ mp off : Nat) : Selector B := ⟨mp, s, s, off, defaultFilter cell s typ⟩

/-- constructor for array members (selector.h:225-242, defaultfilterfactory.h:60-65) -/
def selArray (cell s arity typ mp off : Nat) : Selector B := ⟨mp, s, s * arity, off, defaultArrayFilter cell s arity typ⟩

/-- constructors with a filter (selector.h:245-273) -/
def selFilter (s mp off : Nat) (f : Filter B) : Selector B := ⟨mp, s, f.sizeOf, off, f⟩

/-- constructor for a member's member (selector.h:275-293, memberfilter.h:44-54); `c` is `sizeof(MEMBER)`, `mp2` the offset of the nested member. `GetMemberOffset` of the
inner selector is never used. -/
def selNested (cell c s typ mp mp2 off : Nat) (dflt : List B) : Selector B := ⟨mp, c, s, off, memberFilter (defaultFilter cell c typ) (selScalar c s typ mp2 0) dflt⟩

/-- constructor for a member's array (selector.h:296-314, memberfilter.h:56-66) -/
def selNestedArray (cell c s arity typ mp mp2 off : Nat) (dflt : List B) : Selector B :=
  ⟨mp, c, s * arity, off, memberFilter (defaultFilter cell c typ) (selArray c s arity typ mp2 0) dflt⟩

/-- constructor for a member of a member's member (selector.h:317-340, memberfilter.h:68-79) -/
def selNested2 (cell c c2 s typ mp mp2 mp3 off : Nat) (dflt dflt2 : List B) : Selector B :=
  ⟨mp, c, s, off, memberFilter (defaultFilter cell c typ) (selFilter c2 mp2 0 (memberFilter (defaultFilter c c2 typ) (selScalar c2 s typ mp3 0) dflt2)) dflt⟩

/-! ## grids; a run is the index of a streak's first cell in the memory, along with the streak's length -/

/-- `Grid::saveMemberImplementationGeneric` (grid.h:437-454): the cells of a streak are an array, starting at the address of its origin -/
def aosSave (cell : Nat) (q : Selector B) (cells : List B) (runs : List (Nat × Nat)) (tl : Loc) (tgt : List B) : Except Err (List B × Nat) :=
  runs.foldlM (fun p r => (q.copyMemberOut cells (r.1 * cell) .host p.1 p.2 tl r.2).bind fun b => .ok (b, p.2 + q.externalSize * r.2)) (tgt, 0)

/-- `Grid::loadMemberImplementationGeneric` (grid.h:471-488) -/
def aosLoad (cell : Nat) (q : Selector B) (cells : List B) (runs : List (Nat × Nat)) (sl : Loc) (src : List B) : Except Err (List B × Nat) :=
  runs.foldlM (fun p r => (q.copyMemberIn src p.2 sl p.1 (r.1 * cell) .host r.2).bind fun b => .ok (b, p.2 + q.externalSize * r.2)) (cells, 0)

/-- `access_member` (macros.hpp:342-349), `D = DIM_X * DIM_Y * DIM_Z`, `INDEX = 0` -/
def accessMember (D i size off : Nat) : Nat := D * off + i * size

/-- `SaveMember` (soagrid.h:179-197) -/
def soaSave (D : Nat) (q : Selector B) (mem : List B) (runs : List (Nat × Nat)) (tl : Loc) (tgt : List B) : Except Err (List B × Nat) :=
  runs.foldlM (fun p r => (q.filter.streakOut mem (accessMember D r.1 q.memberSize q.memberOffset) .host p.1 p.2 tl r.2 D).bind fun b =>
    .ok (b, p.2 + q.externalSize * r.2)) (tgt, 0)

/-- `LoadMember` (soagrid.h:236-256) -/
def soaLoad (D : Nat) (q : Selector B) (mem : List B) (runs : List (Nat × Nat)) (sl : Loc) (src : List B) : Except Err (List B × Nat) :=
  runs.foldlM (fun p r => (q.filter.streakIn src p.2 sl p.1 (accessMember D r.1 q.memberSize q.memberOffset) .host r.2 D).bind fun b =>
    .ok (b, p.2 + q.externalSize * r.2)) (mem, 0)

/-- `saveMember`, `loadMember` (gridbase.h:216-228, 249-261) check the type of externals, then call the grid's implementation -/
def checked (q : Selector B) (typ : Nat) (r : Except Err (List B × Nat)) : Except Err (List B) :=
  if q.filter.typ ≠ typ then .error .invalidArgument else r.bind fun p => .ok p.1

/-- a member, as registered with `LIBFLATARRAY_REGISTER_SOA`: size of its elements, number of elements (1 for scalars), type, offset in the cell -/
structure Reg where
  size : Nat
  arity : Nat
  typ : Nat
  mp : Nat
  deriving DecidableEq, Repr

/-- `offset<CELL, r>::OFFSET` (macros.hpp:51-57 in detail, offset.hpp:33): sum of the sizes of the first `r` members -/
def offsetAt (ms : List Reg) (r : Nat) : Nat := ((ms.take r).map fun x => x.size * x.arity).sum

/-- `offset<CELL, r>::operator()` (detail/macros.hpp:59-87, offset.hpp:35-39): search from the last registered member down to the first -/
def offsetOf (ms : List Reg) (x : Reg) : Nat → Except Err Nat
  | 0 => .error .invalidArgument
  | r + 1 => if ms[r]? = some x then .ok (offsetAt ms r) else offsetOf ms x r

/-- `member_ptr_to_offset` (member_ptr_to_offset.hpp:25-31), called by `GetMemberOffset` (selector.h:38-51) -/
def memberPtrToOffset (ms : List Reg) (x : Reg) : Except Err Nat := offsetOf ms x ms.length

end LGD.Sel
