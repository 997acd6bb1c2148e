import Verif.Model.Hosted
import Verif.Spec.Panel
import Verif.Proofs.Frontend
import Verif.Proofs.Plugins
import Verif.Props.FromString
import Verif.Proofs.ScriptLoop

set_option linter.unusedSimpArgs false

/-!
# C128: what the commands of the examples with their own `io_context` do
-/

namespace Verif.Hosted
open Spec
open FromString (Value)

abbrev W := World Iface Storage.Volatile

/-- The session is in the state that the panel describes: it is in the menu of the example, `hello` is enabled, `color` and `nocolor` as the panel says; the colours are on or off and the session left or not, as the panel says, and the
    context is stopped if and only if the session has been left. -/
structure At (k : Panel) (w : W) : Prop where
  tree : w.tree = tree
  current : w.current = 0
  root : w.dis 0 = false
  hello : w.dis 1 = false
  color : w.dis 2 = !k.color
  nocolor : w.dis 3 = !k.nocolor
  on : w.io.style.color = k.on
  left : w.exit = k.left
  stopped : w.app.stopped = k.left
  hist : History.WF w.hist

/-- Lines are fed one after the other; what is written in answer to each. -/
def answers (A : App Iface Storage.Volatile) (fuel : Nat) : List Str → W → Option (W × List Str)
  | [], w => some (w, [])
  | l :: ls, w =>
    match feed A fuel l w with
    | .ok (w', none) =>
      match answers A fuel ls w' with
      | some (v, ts) => some (v, w'.io.out.drop w.io.out.length :: ts)
      | none => none
    | _ => none

theorem scan (p : Platform) {t : Str} {rest : List Str} {sub : MenuInfo → Forest → W → Res Iface Storage.Volatile} {id : Id} {nm d : Str} {f : Forest} {w : W} (hx : (call w.app id).exn = none) :
    scanEntries (app p) (t :: rest) sub (.cmd (cmd id nm d) f) w =
      if t = nm ∧ rest = [] ∧ w.dis id = false then .ok ((w.effect (call w.app id)).note (.ran (cmd id nm d) [] w.snap none), .found) else scanEntries (app p) (t :: rest) sub f w := by
  by_cases h : t = nm
  · subst h
    by_cases hr : rest = []
    · subst hr
      by_cases hd : w.dis id = false
      · rw [if_pos ⟨rfl, rfl, hd⟩]
        exact Plugged.scan_hit (ps := []) (vals := []) hd rfl rfl rfl rfl hx
      · rw [if_neg (by simp [hd])]
        have e : execCmd (app p) (cmd id t d) [t] w = .ok (w, .notFound) := by
          unfold execCmd
          rw [if_pos (by simpa [cmd] using hd)]
        rw [scanEntries, e]; simp [goOn]
    · rw [if_neg (by simp [hr])]
      exact Plugged.scan_short (ps := []) rfl (by simpa using hr)
  · rw [if_neg (fun hh => h hh.1)]
    exact Plugged.scan_miss (fun hh => h hh.symm)

theorem call_none (s : Iface) (n : Nat) : (call s n).exn = none := by
  unfold call; split <;> rfl

theorem scanned (p : Platform) {k : Panel} {w : W} (h : At k w) (t : Str) (rest : List Str) :
    scanCurrent (app p) (t :: rest) w =
      if t = bs!"hello" ∧ rest = [] ∧ w.dis 1 = false then .ok ((w.effect (call w.app 1)).note (.ran (cmd 1 bs!"hello" bs!"Print hello world") [] w.snap none), .found)
      else if t = bs!"color" ∧ rest = [] ∧ w.dis 2 = false then .ok ((w.effect (call w.app 2)).note (.ran (cmd 2 bs!"color" bs!"Enable colors in the cli") [] w.snap none), .found)
      else if t = bs!"nocolor" ∧ rest = [] ∧ w.dis 3 = false then .ok ((w.effect (call w.app 3)).note (.ran (cmd 3 bs!"nocolor" bs!"Disable colors in the cli") [] w.snap none), .found)
      else .ok (w, .notFound) := by
  have hl : w.tree.locate w.current = some [(tree.root, tree.kids)] := by rw [h.tree, h.current]; rfl
  have hr : w.dis tree.root.id = false := h.root
  unfold scanCurrent
  rw [hl]
  simp only [scanCmds, hr]
  show goOn w (scanEntries (app p) (t :: rest) _ (.cmd (cmd 1 _ _) (.cmd (cmd 2 _ _) (.cmd (cmd 3 _ _) .nil))) w) _ = _
  rw [scan p (call_none _ _)]
  split
  · rfl
  rw [scan p (call_none _ _)]
  split
  · rfl
  rw [scan p (call_none _ _)]
  split
  · rfl
  rw [scanEntries]
  simp [goOn, handleCommand]

theorem entered {k : Panel} {w : W} (h : At k w) (line : Str) : ∃ x, History.newCommand w.hist line = .ok x ∧ Frontend.Fine x ∧ At k { w with hist := x } := by
  obtain ⟨x, h1, h2, h3, h4, _⟩ := History.newCommand_ok h.hist line
  exact ⟨x, h1, ⟨h2, h4⟩, ⟨h.tree, h.current, h.root, h.hello, h.color, h.nocolor, h.on, h.left, h.stopped, h2⟩⟩

theorem does_iff {k : Panel} {toks : List Str} {k' : Panel} {t : Str} : k.Does toks k' t ↔
    (toks = [bs!"hello"] ∧ k' = k ∧ t = bs!"Hello, world\n") ∨
    (toks = [bs!"color"] ∧ k.color = true ∧ k' = { k with color := false, nocolor := true, on := true } ∧ t = bs!"Colors ON\n") ∨
    (toks = [bs!"nocolor"] ∧ k.nocolor = true ∧ k' = { k with color := true, nocolor := false, on := false } ∧ t = bs!"Colors OFF\n") ∨
    (toks = [bs!"help"] ∧ k' = k ∧ t = bs!"Commands available:\n" ++ (globalItems ++ k.offers).flatMap HelpItem.text) ∨
    (toks = [bs!"exit"] ∧ k' = { k with left := true } ∧ t = bs!"Closing App...\nGoodbye and thanks for all the fish.\n") := by
  constructor
  · intro h
    cases h <;> simp [*]
  · rintro (⟨rfl, rfl, rfl⟩ | ⟨rfl, h, rfl, rfl⟩ | ⟨rfl, h, rfl, rfl⟩ | ⟨rfl, rfl, rfl⟩ | ⟨rfl, rfl, rfl⟩)
    · exact .hello
    · exact .color h
    · exact .nocolor h
    · exact .help
    · exact .exit

theorem help_text (k : Panel) (dis : Id → Bool) (h1 : dis 0 = false) (h2 : dis 1 = false) (h3 : dis 2 = !k.color) (h4 : dis 3 = !k.nocolor) :
    bs!"Commands available:\n" ++ globalCmds.flatMap Cmd.helpText ++ mainHelp dis [(tree.root, tree.kids)] = bs!"Commands available:\n" ++ (globalItems ++ k.offers).flatMap HelpItem.text := by
  have e : mainHelp dis [(tree.root, tree.kids)] = k.offers.flatMap HelpItem.text := by
    show (if dis 0 = true then [] else (Forest.cmd (cmd 1 _ _) (.cmd (cmd 2 _ _) (.cmd (cmd 3 _ _) .nil))).helpText dis ++ []) = _
    rw [if_neg (by simp [h1])]
    cases hc : k.color <;> cases hn : k.nocolor <;> simp [Forest.helpText, cmd, h2, h3, h4, hc, hn, Panel.offers] <;> rfl
  rw [e, List.flatMap_append, List.append_assoc]
  rfl

/-- One line: the session ends in the state and has written the text of an answer. -/
theorem answered (p : Platform) (fuel : Nat) {k : Panel} {w : W} (h : At k w) {line : Str} {toks : List Str} (hl : Lex.Line line toks) (hr : ¬ Recalls toks) (hcl : Clear p toks) :
    ∃ k' t w', k.Answer line k' t ∧ feed (app p) (fuel + 1) line w = .ok (w', none) ∧ At k' w' ∧ w'.io.out = w.io.out ++ t ∧
      (w'.io.style.forced || w'.io.style.tty) = (w.io.style.forced || w.io.style.tty) ∧ (toks = [] → w'.hist = w.hist) ∧ (toks ≠ [] → History.newCommand w.hist line = .ok w'.hist) := by
  by_cases hb : toks = []
  · subst hb
    exact ⟨k, [], w, .blank hl, by simp [feed, (split_iff _ _).2 hl, bind, Except.bind], h, by simp, rfl, fun _ => rfl, fun h => absurd rfl h⟩
  obtain ⟨x, hx, hf, ha⟩ := entered h line
  by_cases h1 : toks = [bs!"help"]
  · subst h1
    have hloc : w.tree.locate w.current = some [(tree.root, tree.kids)] := by rw [h.tree, h.current]; rfl
    refine ⟨k, _, (({ w with hist := x } : W).note (.builtin .help)).put (bs!"Commands available:\n" ++ (globalItems ++ k.offers).flatMap HelpItem.text), .does hl .help, ?_, ?_, ?_, rfl, fun h => (by cases h), fun _ => hx⟩
    · rw [← help_text k w.dis h.root h.hello h.color h.nocolor]
      simp only [feed, (split_iff _ _).2 hl, bind, Except.bind, hx, scanGlobal, helpCmd, World.note, hloc]
      rfl
    · exact ⟨ha.tree, ha.current, ha.root, ha.hello, ha.color, ha.nocolor, ha.on, ha.left, ha.stopped, ha.hist⟩
    · rfl
  by_cases h2 : toks = [bs!"exit"]
  · subst h2
    obtain ⟨cmds, hc⟩ := Frontend.fine_commands hf
    refine ⟨{ k with left := true }, bs!"Closing App...\nGoodbye and thanks for all the fish.\n", ?_, .does hl .exit, ?_, ?_, ?_, ?_, fun h => (by cases h), fun _ => ?_⟩
    · exact ((((((({ w with hist := x } : W).note (.builtin .exit)).note .exitSession).effect ⟨{ w.app with stopped := true }, [.out bs!"Closing App...\n"], none⟩).note .exitGlobal).effect ⟨{ w.app with stopped := true }, [.out bs!"Goodbye and thanks for all the fish.\n"], none⟩).note (.saved cmds)) |> fun v => { v with storage := Storage.Volatile.store w.storage cmds, exit := true }
    · have e : scanGlobal (app p) (feed (app p) fuel) [bs!"exit"] { w with hist := x } = (exitSession (app p) (({ w with hist := x } : W).note (.builtin .exit))).bind fun (w, x) => .ok (w, builtinOutcome x) := rfl
      have e2 : exitSession (app p) (({ w with hist := x } : W).note (.builtin .exit)) = (match History.getCommands x with
          | .error f => .error f
          | .ok cmds => .ok ((((((({ w with hist := x } : W).note (.builtin .exit)).note .exitSession).effect ⟨{ w.app with stopped := true }, [.out bs!"Closing App...\n"], none⟩).note .exitGlobal).effect ⟨{ w.app with stopped := true }, [.out bs!"Goodbye and thanks for all the fish.\n"], none⟩).note (.saved cmds) |> fun v => { v with storage := Storage.Volatile.store w.storage cmds, exit := true }, none)) := rfl
      rw [hc] at e2
      rw [e2] at e
      simp only [feed, (split_iff _ _).2 hl, bind, Except.bind, hx]
      rw [e]
      rfl
    · exact ⟨ha.tree, ha.current, ha.root, ha.hello, ha.color, ha.nocolor, ha.on, rfl, rfl, ha.hist⟩
    · show (w.io.out ++ _) ++ _ = _
      rw [List.append_assoc]; rfl
    · rfl
    · exact hx
  · have hu : UserLine (app p).plat toks := by
      refine ⟨hb, ?_, ?_⟩
      · intro b hg
        cases hg with
        | help => exact h1 rfl
        | exit => exact h2 rfl
        | history => exact hr (.inl rfl)
        | bang g1 g2 => exact hr (.inr ⟨_, _, rfl, g1, g2⟩)
      · exact hcl
    rw [feed_user (app p) hl hu fuel w hx]
    match toks, hb with
    | t :: rest, _ =>
    unfold userPart
    rw [scanned p ha]
    by_cases c1 : t = bs!"hello" ∧ rest = [] ∧ ({ w with hist := x } : W).dis 1 = false
    · rw [if_pos c1]
      obtain ⟨rfl, rfl, _⟩ := c1
      exact ⟨k, _, _, .does hl .hello, rfl, ⟨ha.tree, ha.current, ha.root, ha.hello, ha.color, ha.nocolor, ha.on, ha.left, ha.stopped, ha.hist⟩, rfl, rfl, fun h => (by cases h), fun _ => hx⟩
    rw [if_neg c1]
    by_cases c2 : t = bs!"color" ∧ rest = [] ∧ ({ w with hist := x } : W).dis 2 = false
    · rw [if_pos c2]
      obtain ⟨rfl, rfl, c2⟩ := c2
      have hk : k.color = true := by have := ha.color; rw [c2] at this; simpa using this
      have ht : ∀ i ∈ [(2 : Nat), 3], i ∈ w.tree.ids := by rw [h.tree]; decide
      refine ⟨_, _, _, .does hl (.color hk), rfl, ?_, ?_, ?_, fun h => (by cases h), fun _ => ?_⟩
      · have e2 := ht 2 (by simp)
        have e3 := ht 3 (by simp)
        refine ⟨?_, ?_, ?_, ?_, ?_, ?_, ?_, ?_, ?_, ?_⟩ <;> simp [World.effect, World.note, call, World.act, World.put, Io.put, e2, e3, ha.tree, ha.current, ha.root, ha.hello, ha.left, ha.stopped, ha.hist]
        all_goals first | exact h.tree | exact h.current | exact h.root | exact h.hello | exact h.left | exact h.stopped | skip
      · have e2 := ht 2 (by simp)
        have e3 := ht 3 (by simp)
        simp [World.effect, World.note, call, World.act, World.put, Io.put, e2, e3]
      · have e2 := ht 2 (by simp)
        have e3 := ht 3 (by simp)
        simp [World.effect, World.note, call, World.act, World.put, Io.put, e2, e3]
      · have e2 := ht 2 (by simp)
        have e3 := ht 3 (by simp)
        simp [World.effect, World.note, call, World.act, World.put, Io.put, e2, e3, hx]
    rw [if_neg c2]
    by_cases c3 : t = bs!"nocolor" ∧ rest = [] ∧ ({ w with hist := x } : W).dis 3 = false
    · rw [if_pos c3]
      obtain ⟨rfl, rfl, c3⟩ := c3
      have hk : k.nocolor = true := by have := ha.nocolor; rw [c3] at this; simpa using this
      have ht : ∀ i ∈ [(2 : Nat), 3], i ∈ w.tree.ids := by rw [h.tree]; decide
      refine ⟨_, _, _, .does hl (.nocolor hk), rfl, ?_, ?_, ?_, fun h => (by cases h), fun _ => ?_⟩
      · have e2 := ht 2 (by simp)
        have e3 := ht 3 (by simp)
        refine ⟨?_, ?_, ?_, ?_, ?_, ?_, ?_, ?_, ?_, ?_⟩ <;> simp [World.effect, World.note, call, World.act, World.put, Io.put, e2, e3, ha.tree, ha.current, ha.root, ha.hello, ha.left, ha.stopped, ha.hist]
        all_goals first | exact h.tree | exact h.current | exact h.root | exact h.hello | exact h.left | exact h.stopped | skip
      · have e2 := ht 2 (by simp)
        have e3 := ht 3 (by simp)
        simp [World.effect, World.note, call, World.act, World.put, Io.put, e2, e3]
      · have e2 := ht 2 (by simp)
        have e3 := ht 3 (by simp)
        simp [World.effect, World.note, call, World.act, World.put, Io.put, e2, e3]
      · have e2 := ht 2 (by simp)
        have e3 := ht 3 (by simp)
        simp [World.effect, World.note, call, World.act, World.put, Io.put, e2, e3, hx]
    rw [if_neg c3]
    refine ⟨k, _, _, .wrong hl (by simp) hr ?_, rfl, ⟨ha.tree, ha.current, ha.root, ha.hello, ha.color, ha.nocolor, ha.on, ha.left, ha.stopped, ha.hist⟩, rfl, rfl, fun h => (by cases h), fun _ => hx⟩
    intro k' t' hd
    rcases does_iff.1 hd with ⟨e, _⟩ | ⟨e, hk, _⟩ | ⟨e, hk, _⟩ | ⟨e, _⟩ | ⟨e, _⟩
    · injection e with e e'; exact c1 ⟨e, e', ha.hello⟩
    · injection e with e e'; exact c2 ⟨e, e', by rw [ha.color, hk]; rfl⟩
    · injection e with e e'; exact c3 ⟨e, e', by rw [ha.nocolor, hk]; rfl⟩
    · exact h1 e
    · exact h2 e

/-! ### The answer is determined -/

theorem does_same {k k1 k2 : Panel} {toks : List Str} {t1 t2 : Str} (h1 : k.Does toks k1 t1) (h2 : k.Does toks k2 t2) : k1 = k2 ∧ t1 = t2 := by
  cases h1 <;> cases h2 <;> exact ⟨rfl, rfl⟩

theorem answer_same {k k1 k2 : Panel} {l t1 t2 : Str} (h1 : k.Answer l k1 t1) (h2 : k.Answer l k2 t2) : k1 = k2 ∧ t1 = t2 := by
  cases h1 with
  | blank a =>
    cases h2 with
    | blank _ => exact ⟨rfl, rfl⟩
    | does b c => cases Script.line_same a b; cases c
    | wrong b c => exact absurd (Script.line_same b a) c
  | does a d =>
    cases h2 with
    | blank b => cases Script.line_same a b; cases d
    | does b c => cases Script.line_same a b; exact does_same d c
    | wrong b _ _ c => cases Script.line_same a b; exact absurd d (c _ _)
  | wrong a d _ e =>
    cases h2 with
    | blank b => exact absurd (Script.line_same a b) d
    | does b c => cases Script.line_same a b; exact absurd c (e _ _)
    | wrong _ _ _ _ => exact ⟨rfl, rfl⟩

/-! ### C128 -/

/-- **C128** When the program starts, the session is as the panel at the start says; the prompt has been written. -/
theorem C128_start {α : Type} (p : Platform) (manual : α → α) (old : α) (tty : Bool) :
    ∃ s, interface p manual old tty = .ok (s, none) ∧ At Panel.start s.proc.w ∧ s.proc.w.io.out = bs!"cli" ++ (if tty then bs!"\x1b[0m" else []) ++ bs!"> " := by
  refine ⟨_, rfl, ⟨rfl, rfl, rfl, rfl, rfl, rfl, ?_, rfl, rfl, History.wf_load _ _⟩, ?_⟩
  · cases tty <;> rfl
  · cases tty
    · rfl
    · exact (by decide +kernel : ((((⟨⟨false, true, false⟩, []⟩ : Io).beforePrompt.put bs!"cli").afterPrompt).put bs!"> ").out = bs!"cli" ++ (if true = true then bs!"\x1b[0m" else []) ++ bs!"> ")

/-- **C128** A line that is not about the history is answered as the table says: the session ends in this state and has written this text. -/
theorem C128_answer (p : Platform) (fuel : Nat) {k : Panel} {w : W} (h : At k w) {line : Str} {toks : List Str} (hl : Lex.Line line toks) (hr : ¬ Recalls toks) (hcl : Clear p toks) (k' : Panel) (t : Str) :
    k.Answer line k' t ↔ ∃ w', feed (app p) (fuel + 1) line w = .ok (w', none) ∧ At k' w' ∧ w'.io.out = w.io.out ++ t := by
  obtain ⟨k1, t1, w1, a1, a2, a3, a4, _⟩ := answered p fuel h hl hr hcl
  constructor
  · intro ha
    obtain ⟨rfl, rfl⟩ := answer_same a1 ha
    exact ⟨w1, a2, a3, a4⟩
  · rintro ⟨w', b1, b2, b3⟩
    rw [a2] at b1
    cases b1
    have e : k1 = k' := by
      have e1 : k1.color = k'.color := by have := a3.color.symm.trans b2.color; simpa using this
      have e2 : k1.nocolor = k'.nocolor := by have := a3.nocolor.symm.trans b2.nocolor; simpa using this
      have e3 := a3.on.symm.trans b2.on
      have e4 := a3.left.symm.trans b2.left
      cases k1; cases k'; simp_all
    have e2 : t1 = t := List.append_cancel_left (a4.symm.trans b3)
    rw [← e, ← e2]
    exact a1

/-- **C128** The same for lines one after the other. -/
theorem C128_answers (p : Platform) (fuel : Nat) : ∀ {ls : List Str} {k : Panel} {w : W}, At k w → (∀ l ∈ ls, ∀ toks, Lex.Line l toks → ¬ Recalls toks ∧ Clear p toks) →
    ∃ k' ts w', k.Answers ls k' ts ∧ answers (app p) (fuel + 1) ls w = some (w', ts) ∧ At k' w'
  | [], k, w, h, _ => ⟨k, [], w, .nil, rfl, h⟩
  | l :: ls, k, w, h, hr => by
    obtain ⟨toks, hl⟩ := Split.line_total l
    obtain ⟨k1, t1, w1, a1, a2, a3, a4, _⟩ := answered p fuel h hl (hr l (by simp) _ hl).1 (hr l (by simp) _ hl).2
    obtain ⟨k2, ts, w2, b1, b2, b3⟩ := C128_answers p fuel (ls := ls) a3 (fun x hx => hr x (by simp [hx]))
    refine ⟨k2, t1 :: ts, w2, .cons a1 b1, ?_, b3⟩
    simp [answers, a2, b2, a4]

/-- **C128** The answers are determined by the lines. -/
theorem C128_unique {ls : List Str} {k k1 k2 : Panel} {ts1 ts2 : List Str} (h1 : k.Answers ls k1 ts1) (h2 : k.Answers ls k2 ts2) : k1 = k2 ∧ ts1 = ts2 := by
  induction h1 generalizing k2 ts2 with
  | nil => cases h2; exact ⟨rfl, rfl⟩
  | cons a _ ih =>
    cases h2 with
    | cons b c =>
      obtain ⟨rfl, rfl⟩ := answer_same a b
      obtain ⟨rfl, rfl⟩ := ih c
      exact ⟨rfl, rfl⟩

/-- The panel after answers: both commands are enabled and there are no colours, or exactly one of them is, and there are colours if and only if it is `nocolor`. -/
def Panel.Sane (k : Panel) : Prop := (k.color = true ∧ k.nocolor = true ∧ k.on = false) ∨ (k.color = !k.on ∧ k.nocolor = k.on)

theorem sane_answers {ls : List Str} {k k' : Panel} {ts : List Str} (h : k.Answers ls k' ts) (hs : k.Sane) : k'.Sane := by
  induction h with
  | nil => exact hs
  | cons a _ ih =>
    refine ih ?_
    cases a with
    | blank _ => exact hs
    | wrong _ _ _ _ => exact hs
    | does _ d =>
      cases d with
      | hello => exact hs
      | help => exact hs
      | exit => exact hs
      | color _ => exact .inr ⟨rfl, rfl⟩
      | nocolor _ => exact .inr ⟨rfl, rfl⟩

/-- **C128** Whatever lines have been answered since the start, there are colours only if `color` is disabled and `nocolor` enabled; and if both are enabled, no line has been one of the two commands: once one has been executed, exactly
    one is enabled. -/
theorem C128_one {ls : List Str} {k : Panel} {ts : List Str} (h : Panel.start.Answers ls k ts) :
    (k.on = true → k.color = false ∧ k.nocolor = true) ∧ (k.color = true ∨ k.nocolor = true) ∧
    (k.color = true → k.nocolor = true → ∀ l ∈ ls, ¬ Lex.Line l [bs!"color"] ∧ ¬ Lex.Line l [bs!"nocolor"]) := by
  refine ⟨?_, ?_, ?_⟩
  · intro ho
    rcases sane_answers h (.inl ⟨rfl, rfl, rfl⟩) with ⟨_, _, e⟩ | ⟨e1, e2⟩
    · rw [ho] at e; cases e
    · rw [e1, e2, ho]; exact ⟨rfl, rfl⟩
  · rcases sane_answers h (.inl ⟨rfl, rfl, rfl⟩) with ⟨e, _, _⟩ | ⟨e1, e2⟩
    · exact .inl e
    · cases ho : k.on
      · exact .inl (by rw [e1, ho]; rfl)
      · exact .inr (by rw [e2, ho])
  · intro h1 h2
    have key : ∀ {k0 : Panel} {ls ts}, k0.Answers ls k ts → (k0.color = true ∧ k0.nocolor = true → ∀ l ∈ ls, ¬ Lex.Line l [bs!"color"] ∧ ¬ Lex.Line l [bs!"nocolor"]) ∧ (k0.color = !k0.nocolor → False) := by
      intro k0 ls ts h
      generalize hk : k = kf at h
      induction h with
      | nil =>
        subst hk
        refine ⟨fun _ l hl => (by cases hl), fun e => ?_⟩
        rw [h1, h2] at e; cases e
      | cons a _ ih =>
        obtain ⟨i1, i2⟩ := ih hk
        cases a with
        | blank a =>
          refine ⟨fun e l hl => ?_, i2⟩
          rcases List.mem_cons.1 hl with rfl | hl
          · exact ⟨fun g => absurd (Script.line_same a g) (by decide), fun g => absurd (Script.line_same a g) (by decide)⟩
          · exact i1 e l hl
        | wrong a _ _ c =>
          refine ⟨fun e l hl => ?_, i2⟩
          rcases List.mem_cons.1 hl with rfl | hl
          · refine ⟨fun g => ?_, fun g => ?_⟩
            · cases Script.line_same a g; exact c _ _ (.color e.1)
            · cases Script.line_same a g; exact c _ _ (.nocolor e.2)
          · exact i1 e l hl
        | does a d =>
          cases d with
          | color _ => simp at i2
          | nocolor _ => simp at i2
          | hello =>
            refine ⟨fun e l hl => ?_, i2⟩
            rcases List.mem_cons.1 hl with rfl | hl
            · exact ⟨fun g => absurd (Script.line_same a g) (by decide), fun g => absurd (Script.line_same a g) (by decide)⟩
            · exact i1 e l hl
          | help =>
            refine ⟨fun e l hl => ?_, i2⟩
            rcases List.mem_cons.1 hl with rfl | hl
            · exact ⟨fun g => absurd (Script.line_same a g) (by decide), fun g => absurd (Script.line_same a g) (by decide)⟩
            · exact i1 e l hl
          | exit =>
            refine ⟨fun e l hl => ?_, i2⟩
            rcases List.mem_cons.1 hl with rfl | hl
            · exact ⟨fun g => absurd (Script.line_same a g) (by decide), fun g => absurd (Script.line_same a g) (by decide)⟩
            · exact i1 e l hl
    exact (key h).1 ⟨rfl, rfl⟩

/-- What is written in answer to some lines. -/
def transcript (ls : List Str) : Option (List Str) :=
  match interface Props.plat (fun b : Bool => b) false true with
  | .ok (s, none) => (answers (app Props.plat) 2 ls s.proc.w).map (·.2)
  | _ => none

/-- `nocolor` is accepted at first, though there are no colours; then it is not. -/
example : transcript [bs!"nocolor", bs!"nocolor", bs!" ", bs!"color", bs!"color", bs!"hello world", bs!"! x", bs!" 'hello' ", bs!"exit"] =
    some [bs!"Colors OFF\n", bs!"wrong command: nocolor\n", [], bs!"Colors ON\n", bs!"wrong command: color\n", bs!"wrong command: hello world\n", bs!"wrong command: ! x\n", bs!"Hello, world\n", bs!"Closing App...\nGoodbye and thanks for all the fish.\n"] := by decide +kernel

example : Lex.Line bs!"hello world" [bs!"hello", bs!"world"] ∧ ¬ Recalls [bs!"hello", bs!"world"] ∧ Clear Props.plat [bs!"hello", bs!"world"] :=
  ⟨(split_iff _ _).1 rfl, (by rintro (h | ⟨a, n, h, _⟩) <;> cases h), fun a h => by cases h⟩

example : Panel.start.Answers [bs!"color", bs!"hello"] ⟨false, true, true, false⟩ [bs!"Colors ON\n", bs!"Hello, world\n"] :=
  .cons (.does ((split_iff _ _).1 rfl) (.color rfl)) (.cons (.does ((split_iff _ _).1 rfl) .hello) .nil)

end Verif.Hosted
