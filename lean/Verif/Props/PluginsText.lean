import Verif.Props.Plugins
import Verif.Props.Colour

set_option linter.unusedSimpArgs false

/-!
# C106: help, prompts, colours and exit of the plugin manager
-/

namespace Verif.Plugged
open Spec Plugins Props
open FromString (Value)

/-! ### The texts, to the letter -/

def globalText : Str := bs!"Commands available:\n - help\n\tThis help message\n - exit\n\tQuit the session\n - history\n\tShow the history\n - ! <history entry index>\n\tExec a command by index in the history\n"

def colorText : Str := bs!" - color\n\tEnable colors in the cli\n"
def nocolorText : Str := bs!" - nocolor\n\tDisable colors in the cli\n"

/-- What is shown of a plugin in the root menu. -/
def plugText : Plug → Str
  | .arithmetic => bs!" - arithmetic\n\tEnter the arithmetic plugin menu\n"
  | .strings => bs!" - strings\n\tEnter the strings plugin menu\n"

/-- The help in the root menu, with the choice of colours made last and the plugins loaded. -/
def rootHelpText (o : Option Bool) (ps : List Plug) : Str :=
  globalText ++ bs!" - list\n\tPrint the plugin list\n - loaded\n\tLoad the plugin specified\n - load <plugin_name>\n\tLoad the plugin specified\n - unload <plugin_name>\n\tUnload the plugin specified\n" ++
  (if o = some true then [] else colorText) ++ (if o = some false then [] else nocolorText) ++ ps.flatMap plugText

/-- The help in the menu of a plugin. -/
def plugHelpText : Plug → Str
  | .arithmetic => globalText ++ bs!" - add <first_term> <second_term>\n\tPrint the sum of the two numbers\n - add <int> <int> <int>\n\tPrint the sum of the three numbers\n - sub <subtrahend> <minuend>\n\tPrint the result of a subtraction\n - cli\n\t(menu)\n"
  | .strings => globalText ++ bs!" - reverse <string_to_revert>\n\tPrint the reverse string\n - upper <string>\n\tPrint the string in uppercase\n - sort <list of strings separated by space>\n\tAlphabetically sort a list of words\n - cli\n\t(menu)\n"

/-- The prompt in the menu of a plugin. -/
def plugPrompt : Plug → Str
  | .arithmetic => bs!"arithmetic"
  | .strings => bs!"strings"

/-! ### Help -/

theorem heading : bs!"Commands available:\n" ++ globalItems.flatMap HelpItem.text = globalText := by decide +kernel

theorem kidsOf_text (dis : Id → Bool) (l : List Item) (h : ∀ e ∈ l, dis e.menu = false) : (kidsOf l).helpText dis = (l.map (·.plug)).flatMap plugText := by
  induction l with
  | nil => rfl
  | cons e l ih =>
    rw [kidsOf_cons, Item.forest, Forest.helpText, List.map_cons, List.flatMap_cons, ih (fun x hx => h x (by simp [hx]))]
    rw [if_neg (by show ¬ dis e.menu = true; rw [h e (by simp)]; simp)]
    congr 1
    cases e with
    | mk p m => cases p <;> rfl

theorem rootKids_text (dis : Id → Bool) (f : Forest) (h1 : dis 1 = false) (h2 : dis 2 = false) (h3 : dis 3 = false) (h4 : dis 4 = false) :
    (rootKids f).helpText dis = bs!" - list\n\tPrint the plugin list\n - loaded\n\tLoad the plugin specified\n - load <plugin_name>\n\tLoad the plugin specified\n - unload <plugin_name>\n\tUnload the plugin specified\n" ++
      ((if dis 5 then [] else colorText) ++ ((if dis 6 then [] else nocolorText) ++ f.helpText dis)) := by
  unfold rootKids
  simp only [Forest.helpText, Plugins.cmd, h1, h2, h3, h4, Bool.false_eq_true, if_false]
  rfl

/-- **C106** `help` in the root menu shows the commands, with those of `color` and `nocolor` that are enabled, and one line for each plugin that is loaded. -/
theorem C106_help_root {pf : Platform} {b : Bool} {st : Style} {w : PWorld} (h : Ran pf b st w) (hc : w.current = 0) {line : Str} (hl : Lex.Line line [bs!"help"]) (fuel : Nat) :
    ∃ w', feed (Plugins.app pf b) (fuel + 1) line w = .ok (w', none) ∧ Answers w w' (rootHelpText (chosen none w.log) (told [] w.log)) := by
  have hg := ran_good h
  obtain ⟨h1, _, h3, _⟩ := ran_record h
  have hp : w.tree.locate w.current = some [(rootInfo, rootKids (kidsOf w.app.loaded))] := by rw [hc]; exact hg.root
  have d0 : w.dis 0 = false := hg.others 0 (by decide) (by decide)
  obtain ⟨x, _, hx⟩ := C59_help (Plugins.app pf b) fuel line w (ran_wf h) _ hl hp d0
  refine ⟨_, hx, ?_, rfl, rfl, rfl, rfl, rfl⟩
  show w.io.put _ = w.io.put _
  congr 1
  obtain ⟨d5, d6⟩ := h3
  unfold helpFor menuItems rootHelpText
  simp only [List.head?_nil, Option.toList_none, List.filter_nil, List.map_nil, List.append_nil]
  rw [List.flatMap_append, ← List.append_assoc, heading, ← forest_helpText,
    rootKids_text w.dis _ (hg.others 1 (by decide) (by decide)) (hg.others 2 (by decide) (by decide)) (hg.others 3 (by decide) (by decide)) (hg.others 4 (by decide) (by decide)),
    kidsOf_text w.dis _ (fun e he => hg.on he), h1, d5, d6]
  simp only [List.append_assoc, beq_iff_eq]

/-- **C106** `help` in the menu of a plugin shows its commands and the root menu. -/
theorem C106_help_plugin {pf : Platform} {b : Bool} {st : Style} {w : PWorld} (h : Ran pf b st w) {e : Item} (he : e ∈ w.app.loaded) (hc : w.current = e.menu) {line : Str} (hl : Lex.Line line [bs!"help"]) (fuel : Nat) :
    ∃ w', feed (Plugins.app pf b) (fuel + 1) line w = .ok (w', none) ∧ Answers w w' (plugHelpText e.plug) := by
  have hg := ran_good h
  have hp : w.tree.locate w.current = some [(e.plug.info e.menu, e.plug.kids e.menu), (rootInfo, rootKids (kidsOf w.app.loaded))] := by rw [hc]; exact hg.locate he
  have h7 := (hg.above e he).1
  have on : ∀ k : Nat, 7 ≤ k → w.dis k = false := fun k hk => hg.others k (fun hh => by have : k = 5 := hh; omega) (fun hh => by have : k = 6 := hh; omega)
  obtain ⟨x, _, hx⟩ := C59_help (Plugins.app pf b) fuel line w (ran_wf h) _ hl hp (hg.on he)
  refine ⟨_, hx, ?_, rfl, rfl, rfl, rfl, rfl⟩
  show w.io.put _ = w.io.put _
  congr 1
  have d0 : w.dis rootInfo.id = false := hg.others 0 (by decide) (by decide)
  have hn : (e.plug.kids e.menu).helpText w.dis = (e.plug.kids e.menu).helpText (fun _ => false) := by
    have d1 := on (e.menu + 1) (by omega)
    have d2 := on (e.menu + 2) (by omega)
    have d3 := on (e.menu + 3) (by omega)
    cases e with
    | mk p m => cases p <;> (simp only at d1 d2 d3; simp only [Plug.kids, Forest.helpText, Plugins.cmd, d1, d2, d3])
  unfold helpFor menuItems
  simp only [List.head?_cons, Option.toList_some, List.filter_cons, d0, Bool.not_false, if_true, List.filter_nil, List.map_cons, List.map_nil]
  rw [List.flatMap_append, List.flatMap_append, ← List.append_assoc, ← List.append_assoc, heading, ← forest_helpText, hn, List.append_assoc]
  cases e with
  | mk p m => cases p <;> rfl

/-! ### The prompt -/

/-- **C106** The prompt shows the name of the plugin in whose menu the session is, or `cli`; in green and bold if colours are on. -/
theorem C106_prompt {pf : Platform} {b : Bool} {st : Style} {w w' : PWorld} (h : Ran pf b st w) (hx : w.exit = false) (hp : prompt w = .ok w') :
    ∃ name, w'.io.out = w.io.out ++ painted ((if w.io.style.color then [.inr .green, .inr .bold] else []) ++ [.inl name] ++ (if w.io.style.color || w.io.style.forced || w.io.style.tty then [.inr .reset] else []) ++ [.inl bs!"> "]) ∧
      ((w.current = 0 ∧ name = bs!"cli") ∨ ∃ e ∈ w.app.loaded, w.current = e.menu ∧ name = plugPrompt e.plug) := by
  have hg := ran_good h
  obtain ⟨m, kids, anc, hl, ho⟩ := C97_prompt w w' hp hx
  refine ⟨m.prompt, ho, ?_⟩
  have hm : w.current ∈ w.tree.menuIds := Classical.byContradiction fun hn => by rw [tree_locate_none hn] at hl; cases hl
  rw [hg.menuIds, List.mem_cons, List.mem_map] at hm
  rcases hm with h0 | ⟨e, he, hc⟩
  · rw [h0, hg.root] at hl
    cases hl
    exact .inl ⟨h0, rfl⟩
  · rw [← hc, hg.locate he] at hl
    cases hl
    exact .inr ⟨e, he, hc.symm, by cases e with | mk p m => cases p <;> rfl⟩

/-! ### Colours -/

/-- The colours are switched, and the command that has done it makes way for the other. -/
structure Switched (w w' : PWorld) (on : Bool) : Prop where
  text : w'.io.out = w.io.out ++ (if on then bs!"Colors ON\n" else bs!"Colors OFF\n")
  color : w'.io.style.color = on
  tree : w'.tree = w.tree
  current : w'.current = w.current
  app : w'.app = w.app
  now : Offers w' (some on)

theorem color_world {w : PWorld} (h : Good w) (on : Bool) (t : Str) :
    w.effect ⟨w.app, [.out t, .color on] ++ (if on then [.disable 5, .enable 6] else [.enable 5, .disable 6]), none⟩ =
      { w with io := { w.io.put t with style := { (w.io.put t).style with color := on } }, dis := fun i => if i = 5 then on else if i = 6 then !on else w.dis i } := by
  have h5 : (5 : Id) ∈ w.tree.ids := by rw [h.tree]; simp [Tree.ids, rootKids_ids]
  have h6 : (6 : Id) ∈ w.tree.ids := by rw [h.tree]; simp [Tree.ids, rootKids_ids]
  cases on
  · simp only [World.effect, List.cons_append, List.nil_append, Bool.false_eq_true, if_false, List.foldl_cons, List.foldl_nil, World.act, World.put, if_pos h5, if_pos h6]
    congr 1
    funext i
    by_cases hi : i = 6 <;> by_cases hj : i = 5 <;> simp_all
  · simp only [World.effect, List.cons_append, List.nil_append, if_true, List.foldl_cons, List.foldl_nil, World.act, World.put, if_pos h5, if_pos h6]
    congr 1
    funext i
    by_cases hi : i = 6 <;> by_cases hj : i = 5 <;> simp_all

/-- No plugin has this name. -/
theorem kids_other {pf : Platform} {b : Bool} {w : PWorld} {t : Str} {inner : List Str} {anc : Path} (ht : ∀ p : Plug, t ≠ p.name) (l : List Item) :
    scanEntries (Plugins.app pf b) (t :: inner) (fun m k w => handleCommand (Plugins.app pf b) (t :: inner) false ((m, k) :: anc) w) (kidsOf l) w = .ok (w, .notFound) := by
  induction l with
  | nil => rfl
  | cons x l ih =>
    rw [kidsOf_cons, Item.forest, scanEntries]
    have : handleCommand (Plugins.app pf b) (t :: inner) false ((x.plug.info x.menu, x.plug.kids x.menu) :: anc) w = .ok (w, .notFound) := by
      rw [handleCommand]
      split
      · rfl
      · rw [if_neg (by simp only [Plug.info, Bool.false_eq_true, false_and, or_false]; exact ht x.plug)]
    rw [this]
    simp only [goOn, if_true]
    exact ih

theorem scan_off {A : App Plugins.St Storage.Volatile} {c : Cmd} {toks : List Str} {w : PWorld} {sub : MenuInfo → Forest → PWorld → Res Plugins.St Storage.Volatile} {rest : Forest} (hd : w.dis c.id = true) :
    scanEntries A toks sub (.cmd c rest) w = scanEntries A toks sub rest w := by
  have : execCmd A c toks w = .ok (w, .notFound) := by unfold execCmd; rw [if_pos hd]
  rw [scanEntries, this]; simp [goOn]

def switchCmd (on : Bool) : Cmd :=
  if on then Plugins.cmd 5 bs!"color" [] (.variadic []) .color bs!"Enable colors in the cli" else Plugins.cmd 6 bs!"nocolor" [] (.variadic []) .nocolor bs!"Disable colors in the cli"

/-- **C106** `color` and `nocolor`, typed in the root menu when they are enabled, switch the colours on and off; when they are disabled the line is wrong. -/
theorem C106_switch {pf : Platform} {b : Bool} {st : Style} {w : PWorld} (h : Ran pf b st w) (hc : w.current = 0) (on : Bool) {line : Str} (hl : Lex.Line line [if on then bs!"color" else bs!"nocolor"]) (fuel : Nat) :
    ∃ w', feed (Plugins.app pf b) (fuel + 1) line w = .ok (w', none) ∧
      (chosen none w.log ≠ some on → Switched w w' on) ∧ (chosen none w.log = some on → Answers w w' (bs!"wrong command: " ++ line ++ bs!"\n")) := by
  have hg := ran_good h
  obtain ⟨o5, o6⟩ := C106_colors h
  by_cases ho : chosen none w.log = some on
  · obtain ⟨h1, a, _⟩ := History.newCommand_ok (ran_wf h) line
    have hs : scanCurrent (Plugins.app pf b) [if on then bs!"color" else bs!"nocolor"] { w with hist := h1 } = .ok ({ w with hist := h1 }, .notFound) := by
      unfold scanCurrent
      rw [show ({ w with hist := h1 } : PWorld).tree = w.tree from rfl, show ({ w with hist := h1 } : PWorld).current = 0 from hc, hg.root]
      simp only [scanCmds]
      rw [if_neg (show ¬ w.dis rootInfo.id = true by simp [rootInfo, hg.others 0 (by decide) (by decide)])]
      rw [ho] at o5 o6
      cases on
      · unfold rootKids
        simp only [Bool.false_eq_true, if_false]
        rw [scan_miss (by decide), scan_miss (by decide), scan_miss (by decide), scan_miss (by decide), scan_miss (by decide), scan_off o6, kids_other (fun p => by cases p <;> decide)]
        simp [goOn, handleCommand]
      · unfold rootKids
        simp only [if_true]
        rw [scan_miss (by decide), scan_miss (by decide), scan_miss (by decide), scan_miss (by decide), scan_off o5, scan_miss (by decide), kids_other (fun p => by cases p <;> decide)]
        simp [goOn, handleCommand]
    rw [feed_user (A := Plugins.app pf b) hl (not_global (pf := pf) (by cases on <;> decide)) fuel w a]
    simp only [userPart, hs]
    exact ⟨(({ w with hist := h1 } : PWorld).note (.wrong line)).put (bs!"wrong command: " ++ line ++ bs!"\n"), rfl, fun hn => absurd ho hn, fun _ => ⟨rfl, rfl, rfl, rfl, rfl, rfl⟩⟩
  · obtain ⟨x, hx⟩ := feed_answered (b := b) (r := fun w => (w.effect ((Plugins.app pf b).handler (switchCmd on).fn w.app [])).note (.ran (switchCmd on) [] w.snap none)) (ran_wf h) hl
      (not_global (pf := pf) (by cases on <;> decide)) fuel (fun x => root_scan (good_hist hg x) hc (fun sub => by
        cases on
        · have o6 : ({ w with hist := x } : PWorld).dis 6 = false := by rw [show ({ w with hist := x } : PWorld).dis = w.dis from rfl, o6]; simpa using ho
          unfold rootKids
          simp only [Bool.false_eq_true, if_false]
          rw [scan_miss (by decide), scan_miss (by decide), scan_miss (by decide), scan_miss (by decide), scan_miss (by decide)]
          exact scan_hit (ps := []) (vals := []) o6 rfl rfl rfl rfl rfl
        · have o5 : ({ w with hist := x } : PWorld).dis 5 = false := by rw [show ({ w with hist := x } : PWorld).dis = w.dis from rfl, o5]; simpa using ho
          unfold rootKids
          simp only [if_true]
          rw [scan_miss (by decide), scan_miss (by decide), scan_miss (by decide), scan_miss (by decide)]
          exact scan_hit (ps := []) (vals := []) o5 rfl rfl rfl rfl rfl))
    refine ⟨_, hx, fun _ => ?_, fun hn => absurd hn ho⟩
    have hw := color_world (good_hist hg x) on (if on then bs!"Colors ON\n" else bs!"Colors OFF\n")
    have he : (Plugins.app pf b).handler (switchCmd on).fn ({ w with hist := x } : PWorld).app [] =
        ⟨({ w with hist := x } : PWorld).app, [.out (if on then bs!"Colors ON\n" else bs!"Colors OFF\n"), .color on] ++ (if on then [.disable 5, .enable 6] else [.enable 5, .disable 6]), none⟩ := by
      cases on <;> rfl
    rw [he, hw]
    exact ⟨rfl, rfl, rfl, rfl, rfl, by cases on <;> exact ⟨rfl, rfl⟩⟩

/-! ### The end -/

/-- **C106** `exit`, typed anywhere, closes the session: both exit actions speak, in this order, the program is told to stop, and no prompt follows. -/
theorem C106_exit {pf : Platform} {b : Bool} {st : Style} {w : PWorld} (h : Ran pf b st w) {line : Str} (hl : Lex.Line line [bs!"exit"]) (fuel : Nat) :
    ∃ w', feed (Plugins.app pf b) (fuel + 1) line w = .ok (w', none) ∧ w'.io.out = w.io.out ++ bs!"Closing App...\nGoodbye and thanks for all the fish.\n" ∧ w'.exit = true ∧ w'.app = { w.app with stopped := true } ∧
      prompt w' = .ok w' := by
  obtain ⟨x, hx, hw, _⟩ := History.newCommand_ok (ran_wf h) line
  obtain ⟨w', cmds, e1, _, e3, e4, _, _, e7⟩ := C57_exit (Plugins.app pf b) _ rfl ((w.entered x).note (.builtin .exit)) hw rfl rfl (fun _ => rfl)
  refine ⟨w', ?_, ?_, e7, e3, by simp [prompt, e7]⟩
  · rw [feed_eq _ hl (by simp), hx]
    simp only
    have hs : scanGlobal (Plugins.app pf b) (feed (Plugins.app pf b) fuel) [bs!"exit"] (w.entered x) = .ok (w', .found) := by
      have h1 : ¬ bs!"exit" = bs!"help" := by decide
      simp only [scanGlobal, h1, if_false, if_true, bind, Except.bind, e1, builtinOutcome]
    unfold body
    rw [hs]
    rfl
  · rw [e4, List.append_assoc]; rfl

/-- The root menu after all this, and that of a plugin. -/
example : (match session [bs!"load strings", bs!"load arithmetic", bs!"nocolor"] with
    | .ok w => (match feed (Plugins.app plat true) 1 bs!"help" w with | .ok (w', _) => w'.io.out == w.io.out ++ rootHelpText (some false) [.strings, .arithmetic] | .error _ => false) | .error _ => false) = true := by decide +kernel

example : (match session [bs!"load strings", bs!"load arithmetic", bs!"strings"] with
    | .ok w => (match feed (Plugins.app plat true) 1 bs!"help" w with | .ok (w', _) => w'.io.out == w.io.out ++ plugHelpText .strings | .error _ => false) | .error _ => false) = true := by decide +kernel

/-- A plugin's menu, with its prompt, and the end. -/
example : (match session [bs!"load arithmetic", bs!"arithmetic"] with
    | .ok w => (match prompt w with
      | .ok w => (match feed (Plugins.app plat true) 1 bs!"exit" w with | .ok (w', _) => some (w'.io.out, w'.app.stopped) | .error _ => none)
      | .error _ => none)
    | .error _ => none) = some (bs!"Plugin arithmetic loaded\narithmetic> Closing App...\nGoodbye and thanks for all the fish.\n", true) := by decide +kernel

/-- **C106** When the program ends, each plugin still loaded says that it is unloaded, once, in some order. -/
theorem C106_farewell {pf : Platform} {b : Bool} {st : Style} {w : PWorld} (h : Ran pf b st w) (order : List Item → List Item) (ho : ∀ l, (order l).Perm l) :
    ∃ ps : List Plug, ps.Perm (told [] w.log) ∧ farewell w.app order = ps.flatMap (fun | .arithmetic => bs!"Plugin arithmetic unloaded\n" | .strings => bs!"Plugin strings unloaded\n") := by
  refine ⟨(order w.app.loaded).map (·.plug), ?_, ?_⟩
  · rw [← (ran_record h).1]; exact (ho _).map _
  · unfold farewell
    rw [List.flatMap_map]
    congr 1
    funext e
    cases e with
    | mk p m => cases p <;> rfl

example : farewell ⟨[⟨.strings, 7⟩, ⟨.arithmetic, 11⟩], 15, true, false⟩ List.reverse = bs!"Plugin arithmetic unloaded\nPlugin strings unloaded\n" := rfl

/-- **C106** The session is closed exactly when the history has been saved, which is at the end of `exit` (C57). -/
theorem C106_closed {pf : Platform} {b : Bool} {st : Style} {w : PWorld} (h : Ran pf b st w) : w.exit = true ↔ ∃ cmds, .saved cmds ∈ w.log := by
  obtain ⟨evs, h1, h2⟩ := exec_flagged _ h
  have h1 : w.log = evs := h1
  rw [h2, h1, List.any_eq_true]
  constructor
  · rintro (h | ⟨e, he, hs⟩)
    · cases h
    · cases e <;> simp [isSaved] at hs; exact ⟨_, he⟩
  · rintro ⟨cmds, hm⟩
    exact .inr ⟨_, hm, rfl⟩

/-- **C106** At the beginning the scheduler is running, no plugin is loaded, and the prompt is `cli`. -/
theorem C106_start (st : Style) : (boot st).app.stopped = false ∧ (boot st).app.loaded = [] ∧ ∃ w', prompt (boot st) = .ok w' ∧
    w'.io.out = painted ((if st.color then [.inr .green, .inr .bold] else []) ++ [.inl bs!"cli"] ++ (if st.color || st.forced || st.tty then [.inr .reset] else []) ++ [.inl bs!"> "]) := by
  refine ⟨rfl, rfl, ?_⟩
  obtain ⟨w', hw⟩ := (C106_safe_partial (pf := plat) (b := true) (st := st) (w := boot st) (.refl _) (by intro e he; cases he)).1
  refine ⟨w', hw, ?_⟩
  obtain ⟨name, h1, h2⟩ := C106_prompt (pf := plat) (b := true) (st := st) (.refl _) rfl hw
  rcases h2 with ⟨_, rfl⟩ | ⟨e, he, _⟩
  · exact h1
  · cases he

example : ∃ w', prompt (boot dull) = .ok w' ∧ w'.io.out = bs!"cli> " := (C106_start dull).2.2
example : (match session [bs!"load strings"] with | .ok w => (w.exit, w.log.any (fun e => match e with | .saved _ => true | _ => false)) | .error _ => (true, true)) = (false, false) ∧
    (match session [bs!"load strings", bs!"exit"] with | .ok w => (w.exit, w.log.any (fun e => match e with | .saved _ => true | _ => false)) | .error _ => (false, false)) = (true, true) := by decide +kernel

end Verif.Plugged
