import Verif.Props.Menus

set_option linter.unusedSimpArgs false

/-!
# Where C04, C08, C09, C10, C12, C13, C15 and C18 fail

Conversions that throw exceptions of their own or are undefined, and handlers that throw `std::bad_cast`: the theorems that exclude these cases have names that end in `_partial`.
-/

namespace Verif.Props
open Spec
open FromString (Value fromString)

/-- **C04 is false of the code** where `char` is signed: the conversion of a token that begins with a byte from 128 to 254 is undefined instead of rejected. -/
theorem C04_refuted_undefined (p : Platform) (hp : p.charSigned = true) (w : FromString.Width) (c : Byte) (hc : 128 ≤ c.toNat ∧ c.toNat ≤ 254) (s : Str) :
    fromString p (.unsigned w) (c :: s) = .error (.ub .ctype) := by
  have h1 : p.ctypeUB c = true := by simp [Platform.ctypeUB, hp, hc.1, hc.2]
  have h2 : c ≠ b%'+' := by rintro rfl; revert hc; decide
  simp [fromString, FromString.unsignedFromString, FromString.unsignedDigits, FromString.digitsLoop, FromString.isdigit, h1, h2]
  rfl

/-- **C08 is false of the code** if the `operator>>` of a custom type throws: its exception is what the conversion results in. -/
theorem C08_refuted_throws (p : Platform) (k : Nat) (s : Str) (x : Exn) (h : p.extract k s = .error x) : fromString p (.custom k) s = .error (.exn x) := by
  simp [fromString, FromString.customFromString, h]
  rfl

namespace Corner

/-- The type has an `operator>>` that throws. -/
def thrower : Param := ⟨.custom 0, bs!"<throws>"⟩
def par : Param := ⟨.string, bs!"<string>"⟩

def first : Cmd := Sample.cmd 1 bs!"set" (.variadic [thrower]) 1
def second : Cmd := Sample.cmd 2 bs!"set" (.variadic [par]) 2
/-- Function 3 disables the menu `m` and throws `bad_cast`, 4 writes, 5 throws `bad_cast`. -/
def closing : Cmd := Sample.cmd 4 bs!"go" (.variadic []) 3
def other : Cmd := Sample.cmd 5 bs!"go" (.variadic []) 4
def menu : MenuInfo := Sample.info 3 bs!"m"
def menuKids : Forest := .cmd closing (.cmd other .nil)
def named : Cmd := Sample.cmd 6 bs!"n" (.variadic []) 5
def namesake : MenuInfo := Sample.info 7 bs!"n"
def lone : Cmd := Sample.cmd 8 bs!"lone" (.variadic [thrower]) 1
def kids : Forest := .cmd first (.cmd second (.menu menu menuKids (.cmd named (.menu namesake .nil (.cmd lone .nil)))))

def app : App (List Nat) (List Str) :=
  { Sample.app with
    plat := { plat with extract := fun _ _ => .error (.std bs!"no") }
    handler := fun fn s _ => ⟨fn :: s, if fn = 3 then [.disable 3] else [.out bs!"ok\n"], if fn = 3 ∨ fn = 5 then some (.badCast bs!"cast") else none⟩ }

def world : World (List Nat) (List Str) := { Sample.world with tree := ⟨Sample.root, kids⟩, used := (Tree.mk Sample.root kids).ids }

end Corner

/-- **C09, C13 are false of the code** after a `bad_cast`: a handler that disables the menu in which it is and throws `bad_cast` is followed by the next command of that name in the same menu, although the line now designates nothing: the
    handler is called, and the menu on the way to it is disabled. -/
theorem C09_refuted_disabled_menu : ∃ w', feed Corner.app 1 bs!"m go" Corner.world = .ok (w', none) ∧ ∃ s, .ran Corner.other [] s none ∈ w'.log ∧ s.dis Corner.menu.id = true ∧
    ∀ l ∈ bs!"m go" :: Corner.world.hist.buffer, ¬ RunsBy Corner.app.plat s.dis l Corner.other [] s := by
  refine ⟨_, rfl, _, .tail _ (.head _), rfl, ?_⟩
  intro l hl ⟨toks, args, path, h1, h2, h3, _, _⟩
  cases List.mem_singleton.1 hl
  have : toks = [bs!"m", bs!"go"] := by
    have := (split_iff _ _).2 h1
    have h : Split.split bs!"m go" = .ok [bs!"m", bs!"go"] := by rfl
    rw [h] at this; cases this; rfl
  subst this
  cases h2
  obtain ⟨cs, hm⟩ := (designatesCmd_iff _ _ _ _ _).1 h3
  cases hm

/-- **C10 is false of the code** if the conversion of an argument for an overload throws an exception of its own: the line designates one command with fitting arguments, and no menu, and no handler is called. -/
theorem C10_refuted_throws :
    (∃ path, Corner.world.tree.locate Corner.world.current = some path ∧ DesignatesCmd Corner.world.dis path [bs!"set", bs!"x"] Corner.second [bs!"x"] ∧ Accepts Corner.app.plat Corner.second [bs!"x"] [.str bs!"x"] ∧
      (∀ c args vals, DesignatesCmd Corner.world.dis path [bs!"set", bs!"x"] c args → Accepts Corner.app.plat c args vals → c = Corner.second ∧ args = [bs!"x"]) ∧ ∀ q, ¬ DesignatesMenu Corner.world.dis path [bs!"set", bs!"x"] q) ∧
    (feed Corner.app 1 bs!"set x" Corner.world).map (fun r => (calls r.1.log, wrongs r.1.log, r.1.io.out)) = .ok ([], [], bs!"no\n") := by
  refine ⟨⟨[(Sample.root, Corner.kids)], rfl, (designatesCmd_iff _ _ _ _ _).2 ⟨[1], by decide +kernel⟩, .cons rfl .nil, ?_, ?_⟩, rfl⟩
  · intro c args vals hd ha
    obtain ⟨cs, hm⟩ := (designatesCmd_iff _ _ _ _ _).1 hd
    have hc : cands Corner.world.dis [bs!"set", bs!"x"] [(Sample.root, Corner.kids)] = [([0], .cmd Corner.first [bs!"x"]), ([1], .cmd Corner.second [bs!"x"])] := by decide +kernel
    rw [hc] at hm
    simp only [List.mem_cons, List.not_mem_nil, or_false, Prod.mk.injEq, Target.cmd.injEq] at hm
    rcases hm with ⟨_, rfl, rfl⟩ | ⟨_, rfl, rfl⟩
    · cases ha with
      | cons h _ => cases h
    · exact ⟨rfl, rfl⟩
  · intro q hd
    obtain ⟨cs, hm⟩ := (designatesMenu_iff _ _ _ _).1 hd
    have hc : cands Corner.world.dis [bs!"set", bs!"x"] [(Sample.root, Corner.kids)] = [([0], .cmd Corner.first [bs!"x"]), ([1], .cmd Corner.second [bs!"x"])] := by decide +kernel
    rw [hc] at hm
    simp at hm

/-- **C12 is false of the code** in the same case: the line designates nothing that fits, and is reported not as a wrong command but with the message of the exception. -/
theorem C12_refuted_throws :
    (∃ path, Corner.world.tree.locate Corner.world.current = some path ∧ (∀ c args vals, DesignatesCmd Corner.world.dis path [bs!"lone", bs!"x"] c args → ¬ Accepts Corner.app.plat c args vals) ∧
      ∀ q, ¬ DesignatesMenu Corner.world.dis path [bs!"lone", bs!"x"] q) ∧
    (feed Corner.app 1 bs!"lone x" Corner.world).map (fun r => (calls r.1.log, wrongs r.1.log, r.1.io.out)) = .ok ([], [], bs!"no\n") := by
  have hc : cands Corner.world.dis [bs!"lone", bs!"x"] [(Sample.root, Corner.kids)] = [([5], .cmd Corner.lone [bs!"x"])] := by decide +kernel
  refine ⟨⟨[(Sample.root, Corner.kids)], rfl, ?_, ?_⟩, rfl⟩
  · intro c args vals hd ha
    obtain ⟨cs, hm⟩ := (designatesCmd_iff _ _ _ _ _).1 hd
    rw [hc] at hm
    simp only [List.mem_cons, List.not_mem_nil, or_false, Prod.mk.injEq, Target.cmd.injEq] at hm
    obtain ⟨_, rfl, rfl⟩ := hm
    cases ha with
    | cons h _ => cases h
  · intro q hd
    obtain ⟨cs, hm⟩ := (designatesMenu_iff _ _ _ _).1 hd
    rw [hc] at hm
    simp at hm

/-- **C15 is false of the code** after a `bad_cast`: the first usable thing that the line designates is a command, its handler is called, and then the line enters a menu of the same name. -/
theorem C15_refuted_bad_cast :
    (∃ path, Corner.world.tree.locate Corner.world.current = some path ∧ Chosen Corner.app.plat Corner.world.dis path [bs!"n"] (.cmd Corner.named [])) ∧
    (feed Corner.app 1 bs!"n" Corner.world).map (fun r => (r.1.current, calls r.1.log)) = .ok (Corner.namesake.id, [(Corner.named, [])]) ∧ Corner.world.current ≠ Corner.namesake.id :=
  ⟨⟨_, rfl, chosen_of (by decide +kernel)⟩, rfl, by decide⟩

end Verif.Props
