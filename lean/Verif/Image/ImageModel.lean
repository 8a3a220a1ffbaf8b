import Mathlib.Data.Rat.Floor

/-!
# Images of 2D grids

`misc/color.h`, `misc/palette.h`, `misc/quickpalette.h`, `storage/image.h`, `storage/image.cpp`, `io/imagepainter.h`, `io/plotter.h`, `io/simplecellplotter.h` and `io/ppmwriter.h`.

Simplifications: integers are unbounded (no image is larger than `int` can tell); floating point numbers are rationals, `NaN` and infinity being `none`; files are lists of bytes.
-/

namespace LGD.Image

/-! ## Colors -/

/-- `Color`: the member `rgb`, 32 bits -/
abbrev Color := Nat

/-- conversion of a floating point number to `int` -/
def toInt (r : ℚ) : Int := if 0 ≤ r then ⌊r⌋ else ⌈r⌉

/-- `Color(int, int, int)` (color.h:52-57); the constructors for bytes agree (color.h:35-50) -/
def mkColor (r g b : Int) : Color := ((255 * 2 ^ 24 + r * 2 ^ 16 + g * 2 ^ 8 + b) % 2 ^ 32).toNat

/-- `Color(double, double, double)` (color.h:59-64) -/
def mkColorD (r g b : ℚ) : Color := mkColor (toInt r) (toInt g) (toInt b)

/-- `red()`, `green()` and `blue()` (color.h:66-79) -/
def red (c : Color) : Nat := c / 2 ^ 16 % 256
def green (c : Color) : Nat := c / 2 ^ 8 % 256
def blue (c : Color) : Nat := c % 256

/-- `Color()` (color.h:31-33) -/
def noColor : Color := 255 * 2 ^ 24

def BLACK : Color := mkColor 0 0 0
def WHITE : Color := mkColor 255 255 255

/-! ## Palettes -/

/-- `std::map<VALUE, Color>`: sorted by keys -/
abbrev PMap := List (ℚ × Color)

/-- `addColor` (palette.h:24-27): `colors[val] = color` -/
def addColor : PMap → ℚ → Color → PMap
  | [], v, c => [(v, c)]
  | (k, d) :: m, v, c => if v < k then (v, c) :: (k, d) :: m else if v = k then (v, c) :: m else (k, d) :: addColor m v c

/-- the elements before and from `upper_bound(val)` on -/
def upperBound (m : PMap) (v : ℚ) : PMap × PMap := (m.takeWhile fun e => e.1 ≤ v, m.dropWhile fun e => e.1 ≤ v)

/-- one channel of `Palette::operator[]` (palette.h:51-57) -/
def mixed (lo hi : Nat) (offset1 offset2 delta : ℚ) : ℚ := (lo * offset2 + hi * offset1) / delta

/-- `Palette::operator[]` (palette.h:29-60); `none` is the exception -/
def palette (m : PMap) (v : ℚ) : Option Color :=
  match (upperBound m v).1.getLast?, (upperBound m v).2 with
  | none, [] => none
  | some l, [] => some l.2
  | none, u :: _ => some u.2
  | some l, u :: _ =>
    let delta := u.1 - l.1
    let offset1 := v - l.1
    let offset2 := delta - offset1
    some (mkColorD (mixed (red l.2) (red u.2) offset1 offset2 delta) (mixed (green l.2) (green u.2) offset1 offset2 delta)
      (mixed (blue l.2) (blue u.2) offset1 offset2 delta))

/-- `QuickPalette(min, max)[val]` (quickpalette.h:19-51). If `min = max` then `mult` is infinite, and conversion of infinity times zero to `int` undefined. -/
def quickPalette (min max : ℚ) (v : ℚ) : Option Color :=
  let mark1 := (min * 3 + max * 1) / 4
  let mark2 := (min * 2 + max * 2) / 4
  let mark3 := (min * 1 + max * 3) / 4
  let mult := 255 * 4 / (max - min)
  if v < min then some BLACK
  else if v > max then some WHITE
  else if min = max then none
  else if v < mark1 then some (mkColorD 0 ((v - min) * mult) 255)
  else if v < mark2 then some (mkColorD 0 255 ((mark2 - v) * mult))
  else if v < mark3 then some (mkColorD ((v - mark2) * mult) 255 0)
  else some (mkColorD 255 ((max - v) * mult) 0)

/-! ## Images -/

/-- `Image`, a `Grid<Color>` with the default topology: writing outside changes the edge cell -/
structure Img where
  w : Int
  h : Int
  px : Int → Int → Color
  edge : Color

def Img.In (i : Img) (x y : Int) : Prop := 0 ≤ x ∧ x < i.w ∧ 0 ≤ y ∧ y < i.h

instance (i : Img) (x y : Int) : Decidable (i.In x y) := inferInstanceAs (Decidable (_ ∧ _))

def Img.get (i : Img) (x y : Int) : Color := if i.In x y then i.px x y else i.edge

def Img.set (i : Img) (x y : Int) (c : Color) : Img :=
  if i.In x y then { i with px := fun x' y' => if x' = x ∧ y' = y then c else i.px x' y' } else { i with edge := c }

/-- `Image(dim, col)` (image.h:19-30) -/
def Img.new (w h : Int) (c : Color) : Img := ⟨w, h, fun _ _ => c, noColor⟩

/-- `for (int i = lo; i < hi; ++i)` -/
def loop {σ : Type} (lo hi : Int) (f : Int → σ → σ) (s : σ) : σ := (List.range (hi - lo).toNat).foldl (fun s (i : Nat) => f (lo + (i : Int)) s) s

/-- `fillBox` (image.h:52-70) -/
def Img.fillBox (i : Img) (ux uy bw bh : Int) (c : Color) : Img :=
  let sx := max ux 0
  let sy := max uy 0
  let ex := min (ux + bw) i.w
  let ey := min (uy + bh) i.h
  loop sy ey (fun y i => loop sx ex (fun x i => i.set x y c) i) i

/-- one iteration of `ImageHelpers::copy` (image.cpp:29-42); `none` is the exception -/
def copyPixel (ulsx ulsy : Int) (source : Img) (ultx ulty : Int) (x y : Int) (t : Option Img) : Option Img :=
  t.bind fun target =>
    if ¬ target.In (ultx + x) (ulty + y) then some target
    else if ¬ source.In (ulsx + x) (ulsy + y) then none
    else some (target.set (ultx + x) (ulty + y) (source.get (ulsx + x) (ulsy + y)))

/-- `ImageHelpers::copy` (image.cpp:9-45) -/
def copy (ulsx ulsy : Int) (source : Img) (ultx ulty : Int) (target : Img) (width height : Int) : Option Img :=
  loop 0 height (fun y t => loop 0 width (fun x t => copyPixel ulsx ulsy source ultx ulty x y t) t) (some target)

/-- `slice` (image.cpp:49-73) -/
def Img.slice (i : Img) (x y width height : Int) : Option Img := copy x y i 0 0 (Img.new width height noColor) width height

/-- `paste` (image.cpp:76-93) -/
def Img.paste (i : Img) (x y : Int) (img : Img) : Option Img := copy 0 0 img x y i img.w img.h

/-! ## Plotting -/

/-- `ceil(a / b)` for a positive `b`: the quotient in double precision is too close to the exact one to matter, as both are 32 bit numbers -/
def ceilDiv (a b : Int) : Int := -(-a / b)

/-- `plotGridInViewport` (plotter.h:55-80) with `SimpleCellPlotter` (simplecellplotter.h:144-162) and `ImagePainter` (imagepainter.h:20-28): `color x y` is the color of the cell which
`grid.get` returns there; the grid measures `gw` by `gh`, tiles `cw` by `ch`. `int` division rounds towards zero. -/
def plotViewport (cw ch : Int) (gw gh : Int) (color : Int → Int → Color) (ox oy vw vh : Int) (i : Img) : Img :=
  let sx := ox.tdiv cw
  let sy := oy.tdiv ch
  let ex := min (ceilDiv (ox + vw) cw) gw
  let ey := min (ceilDiv (oy + vh) ch) gh
  loop sy ey (fun y i => loop sx ex (fun x i => i.fillBox (x * cw - ox + 0) (y * ch - oy + 0) cw ch (color x y)) i) i

/-- `plotGrid` (plotter.h:41-49) -/
def plotGrid (cw ch gw gh : Int) (color : Int → Int → Color) (i : Img) : Img := plotViewport cw ch gw gh color 0 0 (cw * gw) (ch * gh) i

/-! ## Files -/

/-- decimal digits as written by `operator<<` for a nonnegative number -/
def dec (n : Nat) : List Nat := if n < 10 then [48 + n] else dec (n / 10) ++ [48 + n % 10]

/-- the bytes of one pixel (ppmwriter.h:101-104) -/
def pixel (c : Color) : List Nat := [red c, green c, blue c]

/-- `writePPM` (ppmwriter.h:84-112): the contents of the file -/
def ppm (i : Img) : List Nat :=
  ([80, 54, 32] ++ dec i.w.toNat ++ [32] ++ dec i.h.toNat ++ [32, 50, 53, 53, 10]) ++
    loop 0 i.h (fun y out => loop 0 i.w (fun x out => out ++ pixel (i.get x y)) out) []

/-- the name of the file (ppmwriter.h:86-88): prefix, `.`, the step with at least four digits, `.ppm` -/
def fileName (pre : List Nat) (step : Nat) : List Nat :=
  pre ++ [46] ++ (List.replicate (4 - (dec step).length) 48 ++ dec step) ++ [46, 112, 112, 109]

/-- `WriterEvent` -/
inductive Event where
  | initialized | stepFinished | allDone
deriving DecidableEq

/-- `PPMWriter::stepFinished` (ppmwriter.h:68-79): name and contents of the file written, if any -/
def ppmStep (pre : List Nat) (period : Nat) (cw ch : Int) (gw gh : Int) (color : Int → Int → Color) (step : Nat) (ev : Event) : Option (List Nat × List Nat) :=
  if ev = .stepFinished ∧ step % period ≠ 0 then none
  else some (fileName pre step, ppm (plotGrid cw ch gw gh color (Img.new (cw * gw) (ch * gh) noColor)))

end LGD.Image
