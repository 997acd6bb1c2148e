import Verif.Model.Style

/-!
# Model of `rang` (`include/cli/detail/rang.h`) and of the manipulators (`include/cli/colorprofile.h`), with the environment on which they depend

`Model/Style` has one constant for `supportsColor() && isTerminal(os.rdbuf())`; here both functions are modelled with their static variables, which are initialised when control reaches them for the first time, and an environment that may
change at any time. So is the console of Windows before version 10, which is coloured by calls of the system instead of escape sequences. The locale, failing streams and other threads are left out.
-/

namespace Verif.Rang

/-- rang.h:4-12 the platform; for Windows, whether `getVersionDependentHandle` (183-187) returns a console (before version 10). -/
inductive Os where
  | unix
  | windows (old : Bool)
  deriving DecidableEq, Repr

/-- What the process finds around it: the variable `TERM`, the buffers of `std::cout`, `std::cerr` and `std::clog` (any stream may be given another one by `rdbuf`), and whether the descriptors of the standard output and error are terminals. -/
structure Env where
  term : Option Str
  cout : Nat
  cerr : Nat
  clog : Nat
  ttyOut : Bool
  ttyErr : Bool
  deriving DecidableEq, Repr

/-- The static variables of the functions; `none`: not initialised yet. -/
structure Statics where
  /-- rang.h:139 `result` -/
  result : Option Bool
  /-- rang.h:103 `pOutbuff` -/
  out : Option Nat
  /-- rang.h:109 `pErrbuff` -/
  err : Option Nat
  /-- rang.h:115 `pLogbuff` -/
  log : Option Nat
  /-- rang.h:232-237 `current_state()`, initially blue, green and red in the foreground -/
  attr : BitVec 16
  deriving DecidableEq, Repr

/-- At the start of the process. -/
def Statics.init : Statics := ⟨none, none, none, none, 7⟩

/-- A stream: its buffer, its `iword`, and what has been written. -/
structure Stream where
  buf : Nat
  iword : Bool
  out : Str
  deriving DecidableEq, Repr

/-- The state of the process: `Color()` (colorprofile.h:38), the static variables, the stream, and the attributes that have been set on the console, in order. -/
structure St where
  color : Bool
  statics : Statics
  os : Stream
  console : List (BitVec 16)
  deriving DecidableEq, Repr

/-- rang.h:129-132 -/
def terms : List Str :=
  [bs!"ansi", bs!"color", bs!"console", bs!"cygwin", bs!"gnome", bs!"konsole", bs!"kterm", bs!"linux", bs!"msys", bs!"putty", bs!"rxvt", bs!"screen", bs!"vt100", bs!"xterm"]

/-- `std::strstr(s, t) != nullptr` (rang.h:141). -/
def strstr : Str → Str → Bool
  | [], t => t.isPrefixOf []
  | c :: s, t => t.isPrefixOf (c :: s) || strstr s t

/-- rang.h:126-148 `supportsColor`. -/
def supportsColor (os : Os) (e : Env) (s : Statics) : Statics × Bool :=
  match os with
  | .windows _ => (s, true)                                                   -- 145
  | .unix =>
    match e.term with
    | none => (s, false)                                                      -- 134-137
    | some t =>
      match s.result with
      | some b => (s, b)
      | none => ({ s with result := some (terms.any (strstr t)) }, terms.any (strstr t))   -- 139-142

/-- rang.h:101-105 `RANG_coutbuf`. -/
def coutbuf (e : Env) (s : Statics) : Statics × Nat :=
  match s.out with
  | some b => (s, b)
  | none => ({ s with out := some e.cout }, e.cout)

/-- rang.h:107-111 `RANG_cerrbuf`. -/
def cerrbuf (e : Env) (s : Statics) : Statics × Nat :=
  match s.err with
  | some b => (s, b)
  | none => ({ s with err := some e.cerr }, e.cerr)

/-- rang.h:113-117 `RANG_clogbuf`. -/
def clogbuf (e : Env) (s : Statics) : Statics × Nat :=
  match s.log with
  | some b => (s, b)
  | none => ({ s with log := some e.clog }, e.clog)

/-- rang.h:151-169 `isTerminal`. -/
def isTerminal (e : Env) (buf : Nat) (s : Statics) : Statics × Bool :=
  let (s, out) := coutbuf e s
  if buf = out then (s, e.ttyOut)                                             -- 153-159
  else
    let (s, err) := cerrbuf e s
    if buf = err then (s, e.ttyErr)                                           -- 161-167
    else
      let (s, log) := clogbuf e s
      if buf = log then (s, e.ttyErr) else (s, false)

/-- rang.h:36-94: a value of one of the enumerations, as a number. -/
inductive Value where
  | style (n : Nat)
  | fg (n : Nat)
  | bg (n : Nat)
  | fgB (n : Nat)
  | bgB (n : Nat)
  deriving DecidableEq, Repr

def Value.num : Value → Nat
  | .style n | .fg n | .bg n | .fgB n | .bgB n => n

/-- rang.h:195-199 `reverseRGB`; reading `rev` out of its bounds is undefined. -/
def reverseRGB (rgb : Nat) : Except Fault (BitVec 16) :=
  match ([0, 4, 2, 6, 1, 5, 3, 7] : List (BitVec 16))[rgb]? with
  | some v => .ok v
  | none => .error (.ub .outOfRange)

/-- rang.h:201-230 `setWinAttribute`. -/
def setWinAttribute (v : Value) (state : BitVec 16) : Except Fault (BitVec 16) :=
  match v with
  | .bg n => do
    let c ← reverseRGB (n - 40)
    .ok ((state &&& (0xFF0F : BitVec 16)) ||| (c <<< 4))                                    -- 203-204
  | .fg n => do
    let c ← reverseRGB (n - 30)
    .ok ((state &&& 0xFFF0) ||| c)                                            -- 209-210
  | .bgB n => do
    let c ← reverseRGB (n - 100)
    .ok ((state &&& (0xFF0F : BitVec 16)) ||| (((8 : BitVec 16) ||| c) <<< 4))                            -- 215-216
  | .fgB n => do
    let c ← reverseRGB (n - 90)
    .ok ((state &&& 0xFFF0) ||| (8 ||| c))                                    -- 221-222
  | .style n => .ok (if n = 0 then 7 else state)                              -- 227-229

/-- rang.h:239-256 `setColor`. -/
def setColor (os : Os) (e : Env) (v : Value) (s : St) : Except Fault St :=
  let esc : St := { s with os := { s.os with out := s.os.out ++ 27 :: b%'[' :: decimal v.num ++ [b%'m'] } }
  match os with
  | .windows true =>
    match isTerminal e s.os.buf s.statics with
    | (t, true) => do
      let a ← setWinAttribute v t.attr
      .ok { s with statics := { t with attr := a }, console := s.console ++ [a] }
    | (t, false) => .ok { esc with statics := t }
  | _ => .ok esc

/-- rang.h:271-281 `operator<<` for these values. -/
def put (os : Os) (e : Env) (v : Value) (s : St) : Except Fault St :=
  if s.os.iword then setColor os e v s
  else
    match supportsColor os e s.statics with
    | (t, false) => .ok { s with statics := t }
    | (t, true) =>
      match isTerminal e s.os.buf t with
      | (t, false) => .ok { s with statics := t }
      | (t, true) => setColor os e v { s with statics := t }

/-- What a program does. -/
inductive Op where
  /-- a text is written -/
  | text (s : Str)
  | beforePrompt | afterPrompt | beforeInput | afterInput
  /-- colorprofile.h:40-41 `SetColor`, `SetNoColor` -/
  | color (on : Bool)
  /-- the stream gets another buffer -/
  | redirect (buf : Nat)
  deriving DecidableEq, Repr

/-- rang.h:287-288: `forceColor`. -/
def force (s : St) : St := { s with os := { s.os with iword := true } }

/-- colorprofile.h:48-70 -/
def step (os : Os) (e : Env) (s : St) : Op → Except Fault St
  | .text t => .ok { s with os := { s.os with out := s.os.out ++ t } }
  | .beforePrompt =>
    if s.color then do
      let s ← put os e (.fg 32) (force s)
      put os e (.style 1) s
    else .ok s
  | .afterPrompt => put os e (.style 0) s
  | .beforeInput => if s.color then put os e (.fgB 97) (force s) else .ok s
  | .afterInput => put os e (.style 0) s
  | .color on => .ok { s with color := on }
  | .redirect buf => .ok { s with os := { s.os with buf := buf } }

/-- A sequence of operations, each in the environment that there is at its time. -/
def run (os : Os) : List (Env × Op) → St → Except Fault St
  | [], s => .ok s
  | (e, o) :: l, s => do
    let s ← step os e s o
    run os l s

end Verif.Rang
