import Verif.Model.Session

/-!
# Model of completion (`include/cli/cli.h`)
-/

namespace Verif.Completion

/-- cli.h:614 and 963: `s.erase(s.begin(), std::find_if(s.begin(), s.end(), [](int ch) { return !std::isspace(ch); }))`. -/
def trimLeft (p : Platform) : Str → Except Fault Str
  | [] => .ok []
  | c :: rest =>
    if p.ctypeUB c then .error (.ub .ctype)
    else if isSpace c then trimLeft p rest
    else .ok (c :: rest)

/-- cli.h:269-274 `Command::GetCompletionRecursive`; `name.rfind(line, 0) == 0` means that `name` starts with `line`. -/
def complName (disabled : Bool) (name line : Str) : List Str :=
  if disabled then [] else if line.isPrefixOf name then [name] else []

/-- cli.h:286-303 `cli::GetCompletions` and the loop of lines 616-621 (without the prefix): the completions of all entries, in order; `sub` is
    `Menu::GetCompletionRecursive`. -/
def complEntries (dis : Id → Bool) (line : Str) (sub : MenuInfo → Forest → Except Fault (List Str)) : Forest → Except Fault (List Str)
  | .nil => .ok []
  | .cmd c rest => do
    let r ← complEntries dis line sub rest
    .ok (complName (dis c.id) c.name line ++ r)
  | .menu m kids rest => do
    let a ← sub m kids
    let r ← complEntries dis line sub rest
    .ok (a ++ r)

/-- cli.h:570-578 `Menu::GetCompletionRecursive` (`viaParent = false`) and 594-607 `Menu::GetCompletionWithParent` (`viaParent = true`) with
    609-629 `GetCompletionRecursiveHelper`, on the first menu of the path. `fuel` bounds the depth of the recursion. -/
def complMenu (p : Platform) (dis : Id → Bool) : Nat → Bool → Path → Str → Except Fault (List Str)
  | _, _, [], _ => .ok []                                           -- no parent (lines 547, 622)
  | 0, _, _ :: _, _ => .error .stackOverflow
  | fuel + 1, viaParent, (m, kids) :: anc, line =>
    let helper (pre : Str) : Except Fault (List Str) := do
      let rest ← trimLeft p (line.drop pre.length)
      let a ← complEntries dis rest (fun m' kids' => complMenu p dis fuel false ((m', kids') :: (m, kids) :: anc) rest) kids
      let b ← complMenu p dis fuel true anc rest
      .ok ((a ++ b).map (fun c => pre ++ bs!" " ++ c))
    if m.name.isPrefixOf line then helper m.name
    else if viaParent && (bs!"..").isPrefixOf line then helper bs!".."
    else .ok (complName (dis m.id) m.name line)

/-- cli.h:544-553 `Menu::GetCompletions` on the first menu of the path. -/
def complCurrent (p : Platform) (dis : Id → Bool) (fuel : Nat) (line : Str) : Path → Except Fault (List Str)
  | [] => .ok []
  | (m, kids) :: anc => do
    let a ← complEntries dis line (fun m' kids' => complMenu p dis fuel false ((m', kids') :: (m, kids) :: anc) line) kids
    let b ← complMenu p dis fuel true anc line
    .ok (a ++ b)

/-- `operator<` of `std::string`: lexicographic, characters compared as `unsigned char`. -/
def strLt : Str → Str → Bool
  | _, [] => false
  | [], _ :: _ => true
  | a :: as, b :: bs => decide (a.toNat < b.toNat) || (a == b && strLt as bs)

def insertSorted (x : Str) : List Str → List Str
  | [] => [x]
  | y :: ys => if strLt y x then y :: insertSorted x ys else x :: y :: ys

/-- cli.h:969 `std::sort` (by `operator<`, which is a total order on strings: every sorting algorithm gives the same result). -/
def sort (l : List Str) : List Str := l.foldr insertSorted []

/-- cli.h:970-971 `std::unique` and `resize`: of each run of equal elements only the first is kept. -/
def unique : List Str → List Str
  | [] => []
  | x :: rest =>
    match unique rest with
    | [] => [x]
    | y :: ys => if x = y then y :: ys else x :: y :: ys

/-- cli.h:960-974 `CliSession::GetCompletions`. The global menu (lines 890-909) has no parent and contains only commands, which are enabled. -/
def completions {σ τ : Type} (p : Platform) (fuel : Nat) (w : World σ τ) (line : Str) : Except Fault (List Str) := do
  let line ← trimLeft p line
  let v1 := globalCmds.flatMap (fun c => complName false c.name line)
  let v3 ← match w.tree.locate w.current with
    | none => .error (.ub .dangling)
    | some path => complCurrent p w.dis fuel line path
  .ok (unique (sort (v1 ++ v3)))

end Verif.Completion
