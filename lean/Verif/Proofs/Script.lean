import Verif.Model.Script
import Verif.Spec.Script
import Verif.Props.Tight
import Verif.Proofs.Plugins
import Verif.Props.Plugins

set_option linter.unusedSimpArgs false

/-!
# The programs `filesession` and `simplelocalsession`: proofs
-/

namespace Verif.Script
open Spec Props
open FromString (Value)

abbrev W := World (Unit × Bool) Storage.Volatile

/-- The application of the session, with the text that the session's exit action writes, if any. -/
abbrev A (p : Platform) (bye : Option Str) : App (Unit × Bool) Storage.Volatile :=
  { FileSession.fileApp (app p) none with exitSession := some (fun s => ⟨(s.1, true), bye.toList.map .out, none⟩) }

def Place.id : Place → Id
  | .root => 0 | .sub => 6 | .subsub => 9

def path : Place → Path
  | .root => [(rootInfo, rootKids)]
  | .sub => [(subInfo, subKids), (rootInfo, rootKids)]
  | .subsub => [(subsubInfo, subsubKids), (subInfo, subKids), (rootInfo, rootKids)]

theorem locate_place (pl : Place) : tree.locate pl.id = some (path pl) := by cases pl <;> rfl

/-! ### The table, menu by menu -/

theorem does_root {t : Str} {rest : List Str} {r : Reply} : Does .root (t :: rest) r ↔
    (t = bs!"hello" ∧ rest = [] ∧ r = .says bs!"Hello, world\n") ∨ (t = bs!"hello_everysession" ∧ rest = [] ∧ r = .says bs!"Hello, everybody\n") ∨
    (t = bs!"answer" ∧ ∃ s d i, rest = [s] ∧ Number.SpellsInt s i ∧ -2 ^ 31 ≤ i ∧ i < 2 ^ 31 ∧ Shows d i ∧ r = .says (bs!"The answer is: " ++ d ++ bs!"\n")) ∨
    (t = bs!"color" ∧ rest = [] ∧ r = .colour true) ∨ (t = bs!"nocolor" ∧ rest = [] ∧ r = .colour false) ∨ (t = bs!"sub" ∧ rest = [] ∧ r = .goes .sub) ∨ (t = bs!"sub" ∧ Does .sub rest r) := by
  constructor
  · intro h
    generalize hp : Place.root = pl at h
    generalize hk : t :: rest = toks at h
    cases h with
    | hello => cases hk; simp
    | everybody => cases hk; simp
    | answer h1 h2 h3 h4 => cases hk; exact .inr (.inr (.inl ⟨rfl, _, _, _, rfl, h1, h2, h3, h4, rfl⟩))
    | color => cases hk; simp
    | nocolor => cases hk; simp
    | helloSub => cases hp
    | demo => cases hp
    | helloSubsub => cases hp
    | down h => cases hp; simp at h; subst h; cases hk; simp [Place.name]
    | inside h h' => cases hp; simp at h; subst h; cases hk; simp [Place.name, h']
    | up h => cases hp; simp at h
    | outside h => cases hp; simp at h
  · rintro (⟨rfl, rfl, rfl⟩ | ⟨rfl, rfl, rfl⟩ | ⟨rfl, s, d, i, rfl, h1, h2, h3, h4, rfl⟩ | ⟨rfl, rfl, rfl⟩ | ⟨rfl, rfl, rfl⟩ | ⟨rfl, rfl, rfl⟩ | ⟨rfl, h⟩)
    · exact .hello
    · exact .everybody
    · exact .answer h1 h2 h3 h4
    · exact .color
    · exact .nocolor
    · exact .down (b := .sub) (by simp)
    · exact .inside (b := .sub) (by simp) h

theorem does_sub {t : Str} {rest : List Str} {r : Reply} : Does .sub (t :: rest) r ↔
    (t = bs!"hello" ∧ rest = [] ∧ r = .says bs!"Hello, submenu world\n") ∨ (t = bs!"demo" ∧ rest = [] ∧ r = .says bs!"This is a sample!\n") ∨
    (t = bs!"subsub" ∧ rest = [] ∧ r = .goes .subsub) ∨ (t = bs!"subsub" ∧ Does .subsub rest r) ∨ ((t = bs!"cli" ∨ t = bs!"..") ∧ rest = [] ∧ r = .goes .root) ∨ ((t = bs!"cli" ∨ t = bs!"..") ∧ Does .root rest r) := by
  constructor
  · intro h
    generalize hp : Place.sub = pl at h
    generalize hk : t :: rest = toks at h
    cases h with
    | hello => cases hp
    | everybody => cases hp
    | answer h1 h2 h3 h4 => cases hp
    | color => cases hp
    | nocolor => cases hp
    | helloSub => cases hk; simp
    | demo => cases hk; simp
    | helloSubsub => cases hp
    | down h => cases hp; simp at h; subst h; cases hk; simp [Place.name]
    | inside h h' => cases hp; simp at h; subst h; cases hk; simp [Place.name, h']
    | up h h' => cases hp; simp at h; subst h; cases hk; simp [Place.name] at h'; simp [h']
    | outside h h' h2 => cases hp; simp at h; subst h; cases hk; simp [Place.name] at h'; simp [h', h2]
  · rintro (⟨rfl, rfl, rfl⟩ | ⟨rfl, rfl, rfl⟩ | ⟨rfl, rfl, rfl⟩ | ⟨rfl, h⟩ | ⟨h, rfl, rfl⟩ | ⟨h, h'⟩)
    · exact .helloSub
    · exact .demo
    · exact .down (b := .subsub) (by simp)
    · exact .inside (b := .subsub) (by simp) h
    · exact .up (by simp) h
    · exact .outside (a := .root) (by simp) h h'

theorem does_subsub {t : Str} {rest : List Str} {r : Reply} : Does .subsub (t :: rest) r ↔
    (t = bs!"hello" ∧ rest = [] ∧ r = .says bs!"Hello, subsubmenu world\n") ∨ ((t = bs!"sub" ∨ t = bs!"..") ∧ rest = [] ∧ r = .goes .sub) ∨ ((t = bs!"sub" ∨ t = bs!"..") ∧ Does .sub rest r) := by
  constructor
  · intro h
    generalize hp : Place.subsub = pl at h
    generalize hk : t :: rest = toks at h
    cases h with
    | hello => cases hp
    | everybody => cases hp
    | answer h1 h2 h3 h4 => cases hp
    | color => cases hp
    | nocolor => cases hp
    | helloSub => cases hp
    | demo => cases hp
    | helloSubsub => cases hk; simp
    | down h => cases hp; simp at h
    | inside h h' => cases hp; simp at h
    | up h h' => cases hp; simp at h; subst h; cases hk; simp [Place.name] at h'; simp [h']
    | outside h h' h2 => cases hp; simp at h; subst h; cases hk; simp [Place.name] at h'; simp [h', h2]
  · rintro (⟨rfl, rfl, rfl⟩ | ⟨h, rfl, rfl⟩ | ⟨h, h'⟩)
    · exact .helloSubsub
    · exact .up (by simp) h
    · exact .outside (a := .sub) (by simp) h h'

theorem does_nil {pl : Place} {r : Reply} : ¬ Does pl [] r := by
  intro h
  generalize hk : ([] : List Str) = toks at h
  cases h <;> cases hk

/-! ### What the commands do to the session -/

/-- What a reply leaves. -/
structure After (r : Reply) (w w' : W) : Prop where
  tree : w'.tree = w.tree
  dis : w'.dis = w.dis
  hist : w'.hist = w.hist
  exit : w'.exit = w.exit
  app : w'.app = w.app
  out : w'.io.out = w.io.out ++ r.text
  tty : w'.io.style.tty = w.io.style.tty
  forced : w'.io.style.forced = w.io.style.forced
  color : w'.io.style.color = (match r with | .colour on => on | _ => w.io.style.color)
  current : w'.current = (match r with | .goes p => p.id | _ => w.current)

/-- The arguments do not make the conversion to `int` undefined. -/
def Fine (p : Platform) (toks : List Str) : Prop := ∀ t ∈ toks, (∀ c ∈ t, p.ctypeUB c = false) ∧ (p.strictOverflow = false ∨ t.head? ≠ some b%'-')

section
variable (p : Platform) {bye : Option Str}

/-- The end of the search: in the menu, then in those above. -/
def go (bye : Option Str) (pl : Place) (toks : List Str) (w : W) : Res (Unit × Bool) Storage.Volatile :=
  match path pl with
  | [] => .ok (w, .notFound)
  | (m, k) :: anc =>
    goOn w (scanEntries (A p bye) toks (fun m' k' w => handleCommand (A p bye) toks false ((m', k') :: (m, k) :: anc) w) k w) (fun w => handleCommand (A p bye) toks true anc w)

theorem scan0 (t : Str) (rest : List Str) (sub : MenuInfo → Forest → W → Res (Unit × Bool) Storage.Volatile) (id : Id) (nm : Str) (fn : Nat) (d : Str) (f : Forest) (w : W) (hd : ∀ i, w.dis i = false) :
    scanEntries (A p bye) (t :: rest) sub (.cmd (cmd id nm [] fn d) f) w =
      if t = nm ∧ rest = [] then .ok ((w.effect (FileSession.lift w.app.2 ⟨(), acts fn [], none⟩)).note (.ran (cmd id nm [] fn d) [] w.snap none), .found) else scanEntries (A p bye) (t :: rest) sub f w := by
  by_cases h : t = nm
  · subst h
    by_cases hr : rest = []
    · subst hr
      rw [if_pos ⟨rfl, rfl⟩]
      exact Plugged.scan_hit (ps := []) (vals := []) (hd _) rfl rfl rfl rfl rfl
    · rw [if_neg (by simp [hr])]
      exact Plugged.scan_short (ps := []) rfl (by simpa using hr)
  · rw [if_neg (fun hh => h hh.1)]
    exact Plugged.scan_miss (fun hh => h hh.symm)

theorem scan1 (t : Str) (rest : List Str) (sub : MenuInfo → Forest → W → Res (Unit × Bool) Storage.Volatile) (f : Forest) (w : W) (hd : ∀ i, w.dis i = false) (hf : Fine p rest) :
    let c := cmd 3 bs!"answer" [⟨.signed .w32, bs!"<int>"⟩] 3 bs!"Print the answer to Life, the Universe and Everything "
    (∃ s i, t = bs!"answer" ∧ rest = [s] ∧ Number.SpellsInt s i ∧ -2 ^ 31 ≤ i ∧ i < 2 ^ 31 ∧
      scanEntries (A p bye) (t :: rest) sub (.cmd c f) w = .ok ((w.effect (FileSession.lift w.app.2 ⟨(), acts 3 [.int i], none⟩)).note (.ran c [.int i] w.snap none), .found)) ∨
    ((∀ s i, t = bs!"answer" → rest = [s] → Number.SpellsInt s i → -2 ^ 31 ≤ i → ¬ i < 2 ^ 31) ∧ scanEntries (A p bye) (t :: rest) sub (.cmd c f) w = scanEntries (A p bye) (t :: rest) sub f w) := by
  intro c
  by_cases h : t = bs!"answer"
  · subst h
    match rest, hf with
    | [], hf => exact .inr ⟨fun _ _ _ h => (by cases h), Plugged.scan_short (ps := [⟨.signed .w32, bs!"<int>"⟩]) rfl (by simp)⟩
    | a :: b :: l, hf => exact .inr ⟨fun _ _ _ h => (by cases h), Plugged.scan_short (ps := [⟨.signed .w32, bs!"<int>"⟩]) rfl (by simp)⟩
    | [s], hf =>
      obtain ⟨f1, f2⟩ := hf s (by simp)
      by_cases hs : ∃ i : Int, Number.SpellsInt s i ∧ -2 ^ 31 ≤ i ∧ i < 2 ^ 31
      · obtain ⟨i, h1, h2, h3⟩ := hs
        have hr : Plugged.Reads p s i := ⟨h1, h2, h3, f2⟩
        refine .inl ⟨s, i, rfl, rfl, h1, h2, h3, ?_⟩
        refine Plugged.scan_hit (ps := [⟨.signed .w32, bs!"<int>"⟩]) (vals := [.int i]) (hd _) rfl rfl rfl ?_ rfl
        show convert p _ _ = _
        simp only [convert, hr.converts]; rfl
      · refine .inr ⟨fun s' i _ e h1 h2 h3 => ?_, ?_⟩
        · cases e; exact hs ⟨i, h1, h2, h3⟩
        · have hbad : FromString.fromString p (.signed .w32) s = .error .bad := by
            rcases C05_signed_rejects_partial p .w32 s (f2.imp id .inr) (by
              rintro ⟨i, h1, h2, h3⟩
              refine hs ⟨i, h1, ?_, ?_⟩
              · simp only [FromString.Width.card] at h2; omega
              · simp only [FromString.Width.card] at h3; omega) with h | ⟨_, c, hc, h⟩
            · exact h
            · rw [f1 c hc] at h; cases h
          rw [scanEntries]
          have : execCmd (A p bye) c [bs!"answer", s] w = .ok (w, .notFound) := by
            unfold execCmd
            rw [if_neg (by rw [hd]; simp)]
            simp only [c, cmd, List.length_cons, List.length_nil, ne_eq, not_true_eq_false, if_false, if_true, FileSession.fileApp, app, convert, hbad, bind, Except.bind]
          rw [this]; simp [goOn]
  · exact .inr ⟨fun _ _ hh => absurd hh h, Plugged.scan_miss (fun hh => h hh.symm)⟩

theorem handle_eq (t : Str) (rest : List Str) (v : Bool) (m : MenuInfo) (k : Forest) (anc : Path) (w : W) (hd : ∀ i, w.dis i = false) :
    handleCommand (A p bye) (t :: rest) v ((m, k) :: anc) w =
      if t = m.name ∨ (v = true ∧ t = bs!"..") then
        if rest = [] then .ok ({ w with current := m.id }, .found)
        else goOn w (scanEntries (A p bye) rest (fun m' k' w => handleCommand (A p bye) rest false ((m', k') :: (m, k) :: anc) w) k w) (fun w => handleCommand (A p bye) rest true anc w)
      else .ok (w, .notFound) := by
  rw [handleCommand, if_neg (by simp [hd])]

/-- The result agrees with the table. -/
def Agrees (pl : Place) (toks : List Str) (w : W) (r : Res (Unit × Bool) Storage.Volatile) : Prop :=
  (∃ a w', Does pl toks a ∧ r = .ok (w', .found) ∧ After a w w') ∨ ((∀ a, ¬ Does pl toks a) ∧ r = .ok (w, .notFound))

theorem after_out (w : W) (fn : Nat) (vals : List Value) (t : Str) (ev : Event) (h : acts fn vals = [.out t] ∨ acts fn vals = [.cout t]) :
    After (.says t) w ((w.effect (FileSession.lift w.app.2 ⟨(), acts fn vals, none⟩)).note ev) := by
  rcases h with h | h <;> (rw [h]; exact ⟨rfl, rfl, rfl, rfl, rfl, rfl, rfl, rfl, rfl, rfl⟩)

theorem after_color (w : W) (on : Bool) (fn : Nat) (ev : Event) (h : acts fn [] = [.out (Reply.text (.colour on)), .color on]) :
    After (.colour on) w ((w.effect (FileSession.lift w.app.2 ⟨(), acts fn [], none⟩)).note ev) := by
  rw [h]; exact ⟨rfl, rfl, rfl, rfl, rfl, rfl, rfl, rfl, rfl, rfl⟩

theorem after_goes (w : W) (pl : Place) : After (.goes pl) w { w with current := pl.id } := ⟨rfl, rfl, rfl, rfl, rfl, by simp [Reply.text], rfl, rfl, rfl, rfl⟩

theorem goOn_found {w w' : W} {next : W → Res (Unit × Bool) Storage.Volatile} : goOn w (.ok (w', .found)) next = .ok (w', .found) := rfl
theorem goOn_next {w : W} {next : W → Res (Unit × Bool) Storage.Volatile} : goOn w (.ok (w, .notFound)) next = next w := by simp [goOn]

theorem fine_tail {t : Str} {rest : List Str} (h : Fine p (t :: rest)) : Fine p rest := fun x hx => h x (by simp [hx])

/-- **The search agrees with the table.** -/
theorem go_agrees (n : Nat) : ∀ (toks : List Str), toks.length ≤ n → toks ≠ [] → Fine p toks → ∀ (pl : Place) (w : W), (∀ i, w.dis i = false) → Agrees pl toks w (go p bye pl toks w) := by
  induction n with
  | zero => intro toks h1 h2; exact absurd (List.length_eq_zero_iff.1 (by omega)) h2
  | succ n ih =>
    intro toks hn hne hf pl w hd
    match toks, hn, hne, hf with
    | t :: rest, hn, _, hf =>
    have hn : rest.length ≤ n := by simpa using hn
    have ihr : rest ≠ [] → ∀ q, Agrees q rest w (go p bye q rest w) := fun h q => ih rest hn h (fine_tail p hf) q w hd
    cases pl with
    | root =>
      simp only [go, path, rootKids]
      rw [scan0 _ _ _ _ _ _ _ _ _ _ hd]
      by_cases h1 : t = bs!"hello" ∧ rest = []
      · rw [if_pos h1, goOn_found]
        exact .inl ⟨_, _, does_root.2 (.inl ⟨h1.1, h1.2, rfl⟩), rfl, after_out w 1 [] _ _ (.inl rfl)⟩
      rw [if_neg h1, scan0 _ _ _ _ _ _ _ _ _ _ hd]
      by_cases h2 : t = bs!"hello_everysession" ∧ rest = []
      · rw [if_pos h2, goOn_found]
        exact .inl ⟨_, _, does_root.2 (.inr (.inl ⟨h2.1, h2.2, rfl⟩)), rfl, after_out w 2 [] _ _ (.inr rfl)⟩
      rw [if_neg h2]
      rcases scan1 p t rest (fun m' k' w => handleCommand (A p bye) (t :: rest) false [(m', k'), (rootInfo, .cmd (cmd 1 bs!"hello" [] 1 bs!"Print hello world")
          (.cmd (cmd 2 bs!"hello_everysession" [] 2 bs!"Print hello everybody on all open sessions")
          (.cmd (cmd 3 bs!"answer" [⟨.signed .w32, bs!"<int>"⟩] 3 bs!"Print the answer to Life, the Universe and Everything ")
          (.cmd (cmd 4 bs!"color" [] 4 bs!"Enable colors in the cli")
          (.cmd (cmd 5 bs!"nocolor" [] 5 bs!"Disable colors in the cli") (.menu subInfo subKids .nil))))))] w) (.cmd (cmd 4 bs!"color" [] 4 bs!"Enable colors in the cli")
          (.cmd (cmd 5 bs!"nocolor" [] 5 bs!"Disable colors in the cli") (.menu subInfo subKids .nil))) w hd (fine_tail p hf) with ⟨s, i, e1, e2, e3, e4, e5, e6⟩ | ⟨h3, e6⟩
      · rw [e6, goOn_found]
        exact .inl ⟨_, _, does_root.2 (.inr (.inr (.inl ⟨e1, s, _, i, e2, e3, e4, e5, Plugged.number_shows i, rfl⟩))), rfl, after_out w 3 [.int i] _ _ (.inl rfl)⟩
      rw [e6, scan0 _ _ _ _ _ _ _ _ _ _ hd]
      by_cases h4 : t = bs!"color" ∧ rest = []
      · rw [if_pos h4, goOn_found]
        exact .inl ⟨_, _, does_root.2 (.inr (.inr (.inr (.inl ⟨h4.1, h4.2, rfl⟩)))), rfl, after_color w true 4 _ rfl⟩
      rw [if_neg h4, scan0 _ _ _ _ _ _ _ _ _ _ hd]
      by_cases h5 : t = bs!"nocolor" ∧ rest = []
      · rw [if_pos h5, goOn_found]
        exact .inl ⟨_, _, does_root.2 (.inr (.inr (.inr (.inr (.inl ⟨h5.1, h5.2, rfl⟩))))), rfl, after_color w false 5 _ rfl⟩
      rw [if_neg h5, scanEntries, handle_eq _ _ _ _ _ _ _ _ hd]
      have none : ¬ t = bs!"sub" → ∀ a, ¬ Does .root (t :: rest) a := by
        intro h6 a h
        rcases does_root.1 h with h | h | h | h | h | h | h
        · exact h1 ⟨h.1, h.2.1⟩
        · exact h2 ⟨h.1, h.2.1⟩
        · obtain ⟨h, s, d, i, a1, a2, a3, a4, _⟩ := h
          exact h3 s i h a1 a2 a3 a4
        · exact h4 ⟨h.1, h.2.1⟩
        · exact h5 ⟨h.1, h.2.1⟩
        · exact h6 h.1
        · exact h6 h.1
      by_cases h6 : t = bs!"sub"
      · rw [if_pos (.inl h6)]
        by_cases hr : rest = []
        · rw [if_pos hr, goOn_found, goOn_found]
          exact .inl ⟨_, _, does_root.2 (.inr (.inr (.inr (.inr (.inr (.inl ⟨h6, hr, rfl⟩)))))), rfl, after_goes w .sub⟩
        · rw [if_neg hr]
          have hin : Does .root (t :: rest) = Does .sub rest := by
            funext a
            apply propext
            rw [does_root]
            subst h6
            simp [hr]
          rcases ihr hr .sub with ⟨a, w', g1, g2, g3⟩ | ⟨g1, g2⟩
          · simp only [go, path, rootKids] at g2
            rw [g2, goOn_found, goOn_found]
            exact .inl ⟨a, w', by rw [hin]; exact g1, rfl, g3⟩
          · simp only [go, path, rootKids] at g2
            rw [g2, goOn_next, scanEntries, goOn_next]
            exact .inr ⟨by rw [hin]; exact g1, rfl⟩
      · rw [if_neg (by simpa [subInfo] using h6), goOn_next, scanEntries, goOn_next]
        exact .inr ⟨none h6, rfl⟩
    | sub =>
      simp only [go, path, subKids]
      rw [scan0 _ _ _ _ _ _ _ _ _ _ hd]
      by_cases h1 : t = bs!"hello" ∧ rest = []
      · rw [if_pos h1, goOn_found]
        exact .inl ⟨_, _, does_sub.2 (.inl ⟨h1.1, h1.2, rfl⟩), rfl, after_out w 6 [] _ _ (.inl rfl)⟩
      rw [if_neg h1, scan0 _ _ _ _ _ _ _ _ _ _ hd]
      by_cases h2 : t = bs!"demo" ∧ rest = []
      · rw [if_pos h2, goOn_found]
        exact .inl ⟨_, _, does_sub.2 (.inr (.inl ⟨h2.1, h2.2, rfl⟩)), rfl, after_out w 7 [] _ _ (.inl rfl)⟩
      rw [if_neg h2, scanEntries, handle_eq _ _ _ _ _ _ _ _ hd]
      by_cases h3 : t = bs!"subsub"
      · rw [if_pos (.inl h3)]
        by_cases hr : rest = []
        · rw [if_pos hr, goOn_found, goOn_found]
          exact .inl ⟨_, _, does_sub.2 (.inr (.inr (.inl ⟨h3, hr, rfl⟩))), rfl, after_goes w .subsub⟩
        · rw [if_neg hr]
          have hin : Does .sub (t :: rest) = Does .subsub rest := by
            funext a
            apply propext
            rw [does_sub]
            subst h3
            simp [hr]
          rcases ihr hr .subsub with ⟨a, w', g1, g2, g3⟩ | ⟨g1, g2⟩
          · simp only [go, path, subKids] at g2
            rw [g2, goOn_found, goOn_found]
            exact .inl ⟨a, w', by rw [hin]; exact g1, rfl, g3⟩
          · simp only [go, path, subKids] at g2
            rw [g2, goOn_next, scanEntries, goOn_next, handle_eq _ _ _ _ _ _ _ _ hd, if_neg (by subst h3; decide)]
            exact .inr ⟨by rw [hin]; exact g1, rfl⟩
      · rw [if_neg (by simpa [subsubInfo] using h3), goOn_next, scanEntries, goOn_next, handle_eq _ _ _ _ _ _ _ _ hd]
        by_cases h4 : t = bs!"cli" ∨ t = bs!".."
        · rw [if_pos (by simpa [rootInfo] using h4)]
          by_cases hr : rest = []
          · rw [if_pos hr]
            exact .inl ⟨_, _, does_sub.2 (.inr (.inr (.inr (.inr (.inl ⟨h4, hr, rfl⟩))))), rfl, after_goes w .root⟩
          · rw [if_neg hr]
            have hin : Does .sub (t :: rest) = Does .root rest := by
              funext a
              apply propext
              rw [does_sub]
              rcases h4 with rfl | rfl <;> simp [hr]
            rcases ihr hr .root with ⟨a, w', g1, g2, g3⟩ | ⟨g1, g2⟩
            · simp only [go, path] at g2
              rw [g2]
              exact .inl ⟨a, w', by rw [hin]; exact g1, rfl, g3⟩
            · simp only [go, path] at g2
              rw [g2]
              exact .inr ⟨by rw [hin]; exact g1, rfl⟩
        · rw [if_neg (by simpa [rootInfo] using h4)]
          refine .inr ⟨fun a h => ?_, rfl⟩
          rcases does_sub.1 h with h | h | h | h | h | h
          · exact h1 ⟨h.1, h.2.1⟩
          · exact h2 ⟨h.1, h.2.1⟩
          · exact h3 h.1
          · exact h3 h.1
          · exact h4 h.1
          · exact h4 h.1
    | subsub =>
      simp only [go, path, subsubKids]
      rw [scan0 _ _ _ _ _ _ _ _ _ _ hd]
      by_cases h1 : t = bs!"hello" ∧ rest = []
      · rw [if_pos h1, goOn_found]
        exact .inl ⟨_, _, does_subsub.2 (.inl ⟨h1.1, h1.2, rfl⟩), rfl, after_out w 8 [] _ _ (.inl rfl)⟩
      rw [if_neg h1, scanEntries, goOn_next, handle_eq _ _ _ _ _ _ _ _ hd]
      by_cases h4 : t = bs!"sub" ∨ t = bs!".."
      · rw [if_pos (by simpa [subInfo] using h4)]
        by_cases hr : rest = []
        · rw [if_pos hr]
          exact .inl ⟨_, _, does_subsub.2 (.inr (.inl ⟨h4, hr, rfl⟩)), rfl, after_goes w .sub⟩
        · rw [if_neg hr]
          have hin : Does .subsub (t :: rest) = Does .sub rest := by
            funext a
            apply propext
            rw [does_subsub]
            rcases h4 with rfl | rfl <;> simp [hr]
          rcases ihr hr .sub with ⟨a, w', g1, g2, g3⟩ | ⟨g1, g2⟩
          · simp only [go, path] at g2
            rw [g2]
            exact .inl ⟨a, w', by rw [hin]; exact g1, rfl, g3⟩
          · simp only [go, path] at g2
            rw [g2]
            exact .inr ⟨by rw [hin]; exact g1, rfl⟩
      · rw [if_neg (by simpa [subInfo] using h4)]
        refine .inr ⟨fun a h => ?_, rfl⟩
        rcases does_subsub.1 h with h | h | h
        · exact h1 ⟨h.1, h.2.1⟩
        · exact h4 h.1
        · exact h4 h.1

/-- … from the current menu. -/
theorem scan_agrees {toks : List Str} (ht : toks ≠ []) (hf : Fine p toks) {pl : Place} {w : W} (hd : ∀ i, w.dis i = false) (htr : w.tree = tree) (hc : w.current = pl.id) : Agrees pl toks w (scanCurrent (A p bye) toks w) := by
  have : scanCurrent (A p bye) toks w = go p bye pl toks w := by
    unfold scanCurrent
    rw [htr, hc, locate_place]
    cases pl <;> simp only [path, scanCmds, go, hd, Bool.false_eq_true, if_false, ht]
  rw [this]
  exact go_agrees p toks.length toks (Nat.le_refl _) ht hf pl w hd

end

end Verif.Script
