import Verif.Geom.BoxModel
import Verif.Image.ImageModel
import Mathlib.Data.Rat.Floor

/-!
# Text: commands for the remote steerer, cells in text files, durations

Strings are lists of character codes. `none` is undefined behaviour or an exception.
-/

namespace LGD.Text

abbrev Str := List Nat

/-! ## `StringOps` -/

/-- `std::string::find(char, pos)` -/
def find (s : Str) (c : Nat) (pos : Nat) : Option Nat :=
  if pos ≤ s.length then ((s.drop pos).findIdx? (fun x => x == c)).map (fun k => k + pos) else none

/-- `std::set<std::size_t>::insert`: sets are sorted lists -/
def insSet (x : Nat) : List Nat → List Nat
  | [] => [x]
  | y :: l => if x < y then x :: y :: l else if x = y then y :: l else y :: insSet x l

/-- The loop over the occurrences of one delimiter (stringops.h:64-71); the pair holds the end and the start positions. -/
def scan (s : Str) (c : Nat) : Nat → Nat → List Nat × List Nat → List Nat × List Nat
  | 0, _, st => st
  | fuel + 1, pos, st =>
    match find s c pos with
    | none => st
    | some p => if p < s.length then scan s c fuel (p + 1) (insSet p st.1, insSet (p + 1) st.2) else st

/-- `std::string::substr(pos, count)`; `count` is unsigned, `j - i` for `j < i` exceeds all lengths -/
def substr (s : Str) (i j : Nat) : Option Str :=
  if i ≤ s.length then some ((s.drop i).take (if i ≤ j then j - i else s.length)) else none

/-- The loop over both sets (stringops.h:77-81). Dereferencing the end of the second one is undefined. -/
def pairUp (s : Str) : List Nat → List Nat → Option (List Str)
  | [], _ => some []
  | _ :: _, [] => none
  | i :: is, j :: js =>
    if i ≠ j then (substr s i j).bind (fun t => (pairUp s is js).map (fun ts => t :: ts)) else pairUp s is js

/-- `StringOps::tokenize` (stringops.h:53-84) -/
def tokenize (s delims : Str) : Option (List Str) :=
  let st := delims.foldl (fun st c => scan s c (s.length + 1) 0 st) (insSet s.length [], insSet 0 [])
  pairUp s st.2 st.1

/-- `StringOps::join` (stringops.h:86-98): the delimiter precedes all tokens but the first -/
def join (ts : List Str) (d : Str) : Str :=
  match ts with
  | [] => []
  | t :: ts => ts.foldl (fun buf t => buf ++ d ++ t) t

/-! ## `CommandServer`, `RemoteSteerer` -/

/-- What `handleInput` does: send feedback to the client or run an action -/
inductive Effect where
  | feedback (msg : Str)
  | invoke (command : Str) (parameters : List Str)
deriving DecidableEq

/-- `"no command given"` (commandserver.h:283) -/
def msgNoCommand : Str := [110, 111, 32, 99, 111, 109, 109, 97, 110, 100, 32, 103, 105, 118, 101, 110]
/-- `"command not found: "` (commandserver.h:289) -/
def msgNotFound : Str := [99, 111, 109, 109, 97, 110, 100, 32, 110, 111, 116, 32, 102, 111, 117, 110, 100, 58, 32]
/-- `"try \"help\""` (commandserver.h:292) -/
def msgTryHelp : Str := [116, 114, 121, 32, 34, 104, 101, 108, 112, 34]

/-- `pop_front` (stdcontaineroverloads.h:54-59): undefined for empty vectors -/
def popFront (v : List Str) : Option (Str × List Str) :=
  match v with
  | [] => none
  | x :: v => some (x, v)

/-- One iteration of the loop in `CommandServer::handleInput` (commandserver.h:273-296). `known` tells which keys the map of
actions contains. -/
def handleLine (known : Str → Bool) (line : Str) : Option (List Effect) :=
  (tokenize line [32, 10, 13]).bind (fun parameters =>
    if line = [0] then some []
    else if parameters.length = 0 then some [.feedback msgNoCommand]
    else (popFront parameters).map (fun cp =>
      if known cp.1 then [.invoke cp.1 cp.2] else [.feedback (msgNotFound ++ cp.1), .feedback msgTryHelp]))

def handleLines (known : Str → Bool) : List Str → Option (List Effect)
  | [] => some []
  | l :: ls => (handleLine known l).bind (fun e => (handleLines known ls).map (fun es => e ++ es))

/-- `CommandServer::handleInput` (commandserver.h:266-298) -/
def handleInput (known : Str → Bool) (input : Str) : Option (List Effect) := (tokenize input [10]).bind (handleLines known)

/-- `PassThroughAction::operator()` (passthroughaction.h:25-28): the request -/
def request (key : Str) (parameters : List Str) : Str := key ++ [32] ++ join parameters [32]

/-- `RemoteSteerer::nextStep` (remotesteerer.h:82-83): command and parameters of a request -/
def decodeRequest (r : Str) : Option (Str × List Str) := (tokenize r [32]).bind popFront

/-- `Pipe` (pipe.h:26-224): the class has no data, the bodies of its functions are commented out. -/
structure Pipe where
deriving DecidableEq

/-- `addSteeringRequest` (pipe.h:40-46) -/
def Pipe.addRequest (p : Pipe) (_ : Str) : Pipe := p
/-- `addSteeringFeedback` (pipe.h:48-55) -/
def Pipe.addFeedback (p : Pipe) (_ : Str) : Pipe := p
/-- `retrieveSteeringRequests` (pipe.h:57-70) -/
def Pipe.requests (_ : Pipe) : List Str := []
/-- `retrieveSteeringFeedback` (pipe.h:82-93) -/
def Pipe.feedback (_ : Pipe) : List Str := []

/-- The coordinate `GetHandler::operator()` reads from (gethandler.h:34-42), given the parameters as numbers (the time step
first); `n = DIM - 1`. Accessing missing parameters is undefined. -/
def getCoord (n : Nat) (parameters : List Int) : Option Crd :=
  if n + 1 ≤ parameters.length then some (fun k => if 1 ≤ k ∧ k ≤ n then parameters.getD k 0 else 0)
  else none

/-- `SetAction`'s key (setaction.h:18-20) -/
def setKey (member : Str) : Str := [115, 101, 116] ++ member
/-- the command as in `SetAction`'s help (setaction.h:21) -/
def setHelp (member : Str) : Str := [115, 101, 116, 95] ++ member

/-! ## `ASCIIWriter` -/

/-- The newlines in front of a streak (asciiwriter.h:63-69) -/
def newlines (n : Nat) (o : Crd) : Str :=
  if o 0 = 0 then List.replicate ((List.range (n + 1)).countP (fun d => decide (o d = 0))) 10 else []

/-- The cells of a streak as written by the filter (asciiwriter.h:116-155) which `saveMemberUnchecked` calls for the streak;
`rend` is `operator<<` for the cells' members. -/
def streakCells (s : Streak) : List Crd := (List.range (s.endX - s.origin 0).toNat).map (fun (i : Nat) => upd s.origin 0 (s.origin 0 + (i : Int)))

def cellText (rend : Crd → Str) (cs : List Crd) : Str := cs.flatMap (fun c => rend c ++ [32])

/-- The contents of the file (asciiwriter.h:61-74) -/
def ascii (n : Nat) (b : Box) (rend : Crd → Str) (fuel : Nat) : Option Str :=
  (boxStreaks n b fuel).map (fun ss => ss.flatMap (fun s => newlines n s.origin ++ cellText rend (streakCells s)))

/-- The name of the file (asciiwriter.h:53-54) -/
def asciiName (pre : Str) (step : Nat) : Str :=
  pre ++ [46] ++ (List.replicate (4 - (Image.dec step).length) 48 ++ Image.dec step) ++ [46, 97, 115, 99, 105, 105]

/-- `ASCIIWriter::stepFinished` (asciiwriter.h:47-80): name and contents of the file if one is written -/
def asciiStep (n : Nat) (b : Box) (rend : Crd → Str) (fuel : Nat) (pre : Str) (period step : Nat) (ev : Image.Event) : Option (Option (Str × Str)) :=
  if ev = .stepFinished ∧ step % period ≠ 0 then some none
  else (ascii n b rend fuel).map (fun t => some (asciiName pre step, t))

/-! ## Durations -/

/-- a nonnegative number with `setw(w)` and `setfill('0')` -/
def pad (w k : Nat) : Str := List.replicate (w - (Image.dec k).length) 48 ++ Image.dec k

/-- `TimeStringConversion::renderDuration` (timestringconversion.h:38-60) for nonnegative durations, without the rounding of
`subseconds * 1.0e6`. Converting to `int` is undefined if the seconds don't fit. -/
def renderDuration (q : ℚ) : Option Str :=
  let realSeconds := ⌊q⌋₊
  let subseconds := q - realSeconds
  if realSeconds < 2 ^ 31 then
    some (pad 2 (realSeconds / 3600) ++ [58] ++ pad 2 (realSeconds / 60 % 60) ++ [58] ++ pad 2 (realSeconds % 60) ++
      (if subseconds > 0 then [46] ++ pad 6 ⌊subseconds * 1000000⌋₊ else []))
  else none

/-- `TracingWriter::normalStepFinished` (tracingwriter.h:118-121): the estimated remaining time; `maxSteps - step` is unsigned,
the division is one of doubles (by zero: infinity or NaN, whose conversion to `int` is undefined) -/
def remaining (delta : ℚ) (maxSteps step : Nat) : Option ℚ :=
  if step = 0 then none else some (delta * (((maxSteps + 2 ^ 32 - step) % 2 ^ 32 : Nat) : ℚ) / (step : ℚ))

/-- What `normalStepFinished` prints (tracingwriter.h:112-137): nothing in steps the period doesn't divide, otherwise the remaining
time, the time of arrival and the current time (131-134, 141) -/
def trace (period maxSteps : Nat) (start now : ℚ) (step : Nat) : Option (Option (Str × Str × Str)) :=
  if step % period ≠ 0 then some none
  else (remaining (now - start) maxSteps step).bind (fun r => (renderDuration r).bind (fun rs =>
    (renderDuration (now + r)).bind (fun eta => (renderDuration now).map (fun t => some (rs, eta, t)))))

end LGD.Text
