import Verif.Proofs.FeedInv
import Verif.Proofs.Check
import Verif.Props.Sample

set_option linter.unusedSimpArgs false

/-!
# Properties C09–C13, C16–C19, C61: which command a line runs

`feed A fuel line w = .ok (w', x)`: with the user's code `A`, feeding `line` in the state `w` leads to `w'`, and `x` is the exception that leaves
`Feed`, if any; `fuel` bounds the depth of recursion of `!` (the theorems hold for every value). The ghost `log` records the calls of user code.
-/

namespace Verif.Props
open Spec
open FromString (Value)

variable {σ τ : Type} (A : App σ τ)

/-! ### C09, C13, C17: every handler that runs is designated -/

/-- **C09** (partial; missing: that the menus on the way are still enabled after a `bad_cast`, see `C09_refuted_disabled_menu`) Whatever user code does (it may throw anything, change the menus, disable or enable things, …): every handler that is called while a line
    is fed belongs to an enabled command that is reached by a walk spelled by the tokens of the line, or of a history entry (through `!`), from the current
    menu, and gets the converted arguments (`RunsBy`). For the first handler called the walk goes through enabled menus only, and so does it for
    all of them unless a previous one has thrown `bad_cast`. -/
theorem C09_handlers_designated_partial (fuel : Nat) (line : Str) (w w' : World σ τ) (x : Option Exn) (h : feed A fuel line w = .ok (w', x)) :
    ∃ evs, w'.log = w.log ++ evs ∧
      (∀ c vals s e, .ran c vals s e ∈ evs → ∃ l ∈ line :: w.hist.buffer, RunsBy A.plat allOn l c vals s) ∧
      (∀ pre c vals s e post, evs = pre ++ .ran c vals s e :: post → calls pre = [] → ∃ l ∈ line :: w.hist.buffer, RunsBy A.plat s.dis l c vals s) := by
  obtain ⟨evs, h1, h2, h3⟩ := sound_feed A fuel line w w' x h
  refine ⟨evs, h1, h2, ?_⟩
  intro pre c vals s e post he hp
  refine h3 c vals s e ?_
  rw [he, List.find?_append]
  have : pre.find? isRan = none := by
    rw [List.find?_eq_none]
    intro ev hev
    simp only [calls, List.filterMap_eq_nil_iff] at hp
    have := hp ev hev
    cases ev <;> simp_all [isRan]
  rw [this]
  rfl

/-- In the sample application `sub go` calls the handler of `go`, reached through `sub`. -/
example : ∃ evs, (feed Sample.app 1 bs!"sub go" Sample.world).map (fun r => calls r.1.log) = .ok (calls evs) ∧ calls evs = [(Sample.go, [])] :=
  ⟨[.ran Sample.go [] Sample.world.snap none], by rfl, rfl⟩

/-- With a handler that throws `bad_cast` the search goes on, and a second handler is called. -/
example : (feed Sample.app 1 bs!"cast" Sample.world).map (fun r => calls r.1.log) = .ok [(Sample.cast, []), (Sample.cast2, [])] := by rfl

/-- **C09, C17** If no user code throws `std::bad_cast`: feeding a line calls at most one handler, that of a command which the line (or a history entry
    executed through `!`) designates in the menus as they are when the line is fed, with the converted arguments. -/
theorem C17_at_most_one_handler (hA : A.Tame) (fuel : Nat) (line : Str) (w w' : World σ τ) (x : Option Exn) (h : feed A fuel line w = .ok (w', x)) :
    ∃ evs, w'.log = w.log ++ evs ∧ (calls evs = [] ∨ ∃ c vals, calls evs = [(c, vals)] ∧ ∃ l ∈ line :: w.hist.buffer, ∃ toks path args,
      Lex.Line l toks ∧ w.tree.locate w.current = some path ∧ DesignatesCmd w.dis path toks c args ∧ Accepts A.plat c args vals) := by
  obtain ⟨evs, h1, h2⟩ := feed_tame A hA fuel line w w' x h
  refine ⟨evs, h1, ?_⟩
  rcases h2 with ⟨h, _⟩ | ⟨l, hl, toks, path, m, k, q, h, _⟩ | ⟨l, hl, toks, path, c, args, vals, h, hln, hp, hd, ha, _⟩
  · exact .inl h
  · exact .inl h
  · exact .inr ⟨c, vals, h, l, hl, toks, path, args, hln, hp, hd, ha⟩

theorem sample_tame : Sample.tame.Tame := by
  refine ⟨?_, ?_, ?_, (fun _ _ _ h => by cases h), ?_⟩
  · intro n s v e he
    simp only [Sample.tame, Sample.handler] at he
    split at he
    · cases he
    · split at he
      · cases he
      · split at he <;> cases he
  · intro f h; cases h
  · intro f h s what
    cases h; simp
  · intro f h; cases h

example : (feed Sample.tame 1 bs!"cast" Sample.world).map (fun r => calls r.1.log) = .ok [(Sample.cast, [])] := by rfl

theorem walk_via (dis : Id → Bool) (p : Path) (ws : List Str) (q : Path) :
    Walk dis p ws q ↔ ∃ ms, WalkVia p ws ms q ∧ ∀ m ∈ ms, dis m.id = false := by
  constructor
  · intro h
    induction h with
    | stay p => exact ⟨[], .stay p, by simp⟩
    | step h _ ih =>
      obtain ⟨ms, h1, h2⟩ := ih
      cases h with
      | down hm hd => exact ⟨_, .down hm h1, by simpa using ⟨hd, h2⟩⟩
      | up hd ht => exact ⟨_, .up ht h1, by simpa using ⟨hd, h2⟩⟩
  · rintro ⟨ms, h1, h2⟩
    induction h1 with
    | stay p => exact .stay p
    | down hm _ ih => exact .step (.down hm (h2 _ (by simp))) (ih (fun m hm => h2 m (by simp [hm])))
    | up ht _ ih => exact .step (.up (h2 _ (by simp)) ht) (ih (fun m hm => h2 m (by simp [hm])))

/-- **C13** While a command is disabled, its handler is not called: also when handlers throw and enable or disable things, a handler is only called when its
    command is enabled at that moment. -/
theorem C13_disabled_not_called (fuel : Nat) (line : Str) (w w' : World σ τ) (x : Option Exn) (h : feed A fuel line w = .ok (w', x)) :
    ∃ evs, w'.log = w.log ++ evs ∧ ∀ c vals s e, .ran c vals s e ∈ evs → s.dis c.id = false := by
  obtain ⟨evs, h1, h2, _⟩ := C09_handlers_designated_partial A fuel line w w' x h
  refine ⟨evs, h1, ?_⟩
  intro c vals s e he
  obtain ⟨l, _, toks, args, path, _, _, _, h, _⟩ := h2 c vals s e he
  exact h

/-- **C13** While a command is disabled no line runs its handler (if no user code throws `bad_cast`; otherwise a handler may enable it while the search goes on) … -/
theorem C13_disabled_command_inert (hA : A.Tame) (fuel : Nat) (line : Str) (w w' : World σ τ) (x : Option Exn) (h : feed A fuel line w = .ok (w', x))
    (c : Cmd) (hc : w.dis c.id = true) : ∃ evs, w'.log = w.log ++ evs ∧ ∀ vals, (c, vals) ∉ calls evs := by
  obtain ⟨evs, h1, h2⟩ := C17_at_most_one_handler A hA fuel line w w' x h
  refine ⟨evs, h1, ?_⟩
  intro vals hm
  rcases h2 with h2 | ⟨c', vals', h2, _, _, _, _, _, _, _, ⟨_, _, _, _, _, _, hd⟩, _⟩
  · rw [h2] at hm; cases hm
  · rw [h2, List.mem_singleton] at hm
    cases hm
    rw [hc] at hd; cases hd

/-- With the first `add` disabled the second one is called, although the arguments fit the first. -/
example : (feed Sample.tame 1 bs!"add 1 2" { Sample.world with dis := fun i => i == 1 }).map (fun r => calls r.1.log) =
    .ok [(Sample.addStr, [.str bs!"1", .str bs!"2"])] := by rfl

/-- **C13** (partial; missing: after a `bad_cast`, see `C09_refuted_disabled_menu`) … and while a menu is disabled no line enters it, and the handlers that run are reached without going through it (and not from within it). -/
theorem C13_disabled_menu_inert_partial (hA : A.Tame) (fuel : Nat) (line : Str) (w w' : World σ τ) (x : Option Exn) (h : feed A fuel line w = .ok (w', x))
    (m : MenuInfo) (hm : w.dis m.id = true) :
    (w'.current = m.id → w.current = m.id) ∧
    ∃ evs, w'.log = w.log ++ evs ∧ ∀ c vals, (c, vals) ∈ calls evs → ∃ l ∈ line :: w.hist.buffer, ∃ toks ws args p pk anc ms q,
      Lex.Line l toks ∧ toks = ws ++ c.name :: args ∧ w.tree.locate w.current = some ((p, pk) :: anc) ∧ p ≠ m ∧ WalkVia ((p, pk) :: anc) ws ms q ∧ m ∉ ms ∧
      Contains q c := by
  obtain ⟨evs, h1, h2⟩ := feed_tame A hA fuel line w w' x h
  have hne : ∀ p : MenuInfo, w.dis p.id = false → p ≠ m := by
    rintro p hp rfl
    rw [hm] at hp; cases hp
  refine ⟨?_, evs, h1, ?_⟩
  · intro he
    rcases h2 with ⟨_, h⟩ | ⟨l, hl, toks, path, m', k, q, _, _, hp, ⟨hen, hne', hw⟩, hcur⟩ | ⟨l, hl, toks, path, c, args, vals, h, hln, hp, hd, ha, hcur⟩
    · rw [← h]; exact he
    · exfalso
      rw [he] at hcur
      -- the last menu of a walk is enabled
      have key : ∀ (p : Path) (ts : List Str) (q : Path), Walk w.dis p ts q → ts ≠ [] → Enabled w.dis q := by
        intro p ts q hw
        induction hw with
        | stay p => intro h; exact absurd rfl h
        | @step p q r t ts hs hw ih =>
          intro _
          by_cases hts : ts = []
          · subst hts
            cases hw
            cases hs with
            | down _ hd => exact hd
            | up hd _ => exact hd
          · exact ih hts
      have := key _ _ _ hw hne'
      simp only [Enabled] at this
      rw [← hcur, hm] at this; cases this
    · rw [← hcur]; exact he
  · intro c vals hc
    rcases h2 with ⟨h, _⟩ | ⟨l, hl, toks, path, m', k, q, h, _⟩ | ⟨l, hl, toks, path, c', args, vals', h, hln, hp, ⟨hen, ws, q, ht, hw, hcon, _⟩, ha, _⟩
    · rw [h] at hc; cases hc
    · rw [h] at hc; cases hc
    · rw [h, List.mem_singleton] at hc
      cases hc
      cases path with
      | nil => exact absurd hen id
      | cons pk anc =>
        obtain ⟨p, pk⟩ := pk
        obtain ⟨ms, hv, hms⟩ := (walk_via _ _ _ _).1 hw
        exact ⟨l, hl, toks, ws, args, p, pk, anc, ms, q, hln, ht, hp, hne p hen, hv, (fun hmem => by rw [hms m hmem] at hm; cases hm), hcon⟩

/-- With `sub` disabled neither `sub` nor `sub go` does anything. -/
example : (feed Sample.tame 1 bs!"sub go" { Sample.world with dis := fun i => i == 3 }).map (fun r => (calls r.1.log, wrongs r.1.log)) = .ok ([], [bs!"sub go"]) := by rfl
example : (feed Sample.tame 1 bs!"sub" { Sample.world with dis := fun i => i == 3 }).map (fun r => r.1.current) = .ok 0 := by rfl
example : (feed Sample.tame 1 bs!"sub" Sample.world).map (fun r => r.1.current) = .ok 3 := by rfl

/-- A sequence of `Enable` and `Disable`: `true` is `Disable`. -/
def toggles (l : List (Id × Bool)) : List Act := l.map fun (i, b) => if b then .disable i else .enable i

/-- **C13** After any sequence of `Enable` and `Disable` only the flags may have changed; for every object in the menus the last call decides. -/
theorem C13_last_toggle_decides (w : World σ τ) (l : List (Id × Bool)) :
    ∃ dis, (toggles l).foldl World.act w = { w with dis := dis } ∧ (∀ i ∈ w.tree.ids, dis i = ((l.reverse.find? (·.1 = i)).map (·.2)).getD (w.dis i)) ∧
      (∀ i, i ∉ w.tree.ids → dis i = w.dis i) := by
  induction l generalizing w with
  | nil => exact ⟨w.dis, rfl, by simp, by simp⟩
  | cons x l ih =>
    obtain ⟨j, b⟩ := x
    have hact : ∃ d, w.act (if b then .disable j else .enable j) = { w with dis := d } ∧
        (∀ i ∈ w.tree.ids, d i = if i = j then b else w.dis i) ∧ (∀ i, i ∉ w.tree.ids → d i = w.dis i) := by
      by_cases hj : j ∈ w.tree.ids
      · refine ⟨fun i => if i = j then b else w.dis i, ?_, fun i _ => rfl, ?_⟩
        · cases b <;> simp [World.act, hj]
        · intro i hi
          have : i ≠ j := by rintro rfl; exact hi hj
          simp [this]
      · refine ⟨w.dis, ?_, ?_, fun _ _ => rfl⟩
        · cases b <;> simp [World.act, hj]
        · intro i hi
          have : i ≠ j := by rintro rfl; exact hj hi
          simp [this]
    obtain ⟨d, h1, h2, h3⟩ := hact
    obtain ⟨dis, k1, k2, k3⟩ := ih { w with dis := d }
    refine ⟨dis, ?_, ?_, ?_⟩
    · simp only [toggles, List.map_cons, List.foldl_cons] at k1 ⊢
      rw [h1, k1]
    · intro i hi
      rw [k2 i hi, List.reverse_cons, List.find?_append]
      simp only
      rw [h2 i hi]
      cases hf : l.reverse.find? (fun x => x.1 = i) with
      | some y => simp
      | none =>
        by_cases hij : i = j
        · subst hij; simp
        · have : ¬ j = i := fun h => hij h.symm
          simp [hij, this]
    · intro i hi
      rw [k3 i hi]; exact h3 i hi

/-- **C13** Enabling restores exactly the previous behaviour: if some objects of the menus, enabled before, are disabled, whatever else is enabled or disabled in
    between, and the flags end up as before, then the state is the same as before. -/
theorem C13_enable_restores (w : World σ τ) (l : List (Id × Bool))
    (h : ∀ i ∈ w.tree.ids, ((l.reverse.find? (·.1 = i)).map (·.2)).getD (w.dis i) = w.dis i) : (toggles l).foldl World.act w = w := by
  obtain ⟨dis, h1, h2, h3⟩ := C13_last_toggle_decides w l
  rw [h1]
  have : dis = w.dis := by
    funext i
    by_cases hi : i ∈ w.tree.ids
    · rw [h2 i hi, h i hi]
    · exact h3 i hi
  rw [this]

example : ((toggles [(1, true), (3, true), (1, false), (3, false)]).foldl World.act Sample.world) = Sample.world :=
  C13_enable_restores _ _ (by decide)
example : ((toggles [(1, true), (3, true), (3, false)]).foldl World.act Sample.world).dis 1 = true := by decide

/-! ### C10, C11, C12: what a line does that designates no built-in command -/

/-- A line that designates no built-in command is fed to a session whose current menu exists (`path` is this menu with those that contain it), and
    converting arguments is unproblematic. -/
structure Ready (w : World σ τ) (line : Str) (toks : List Str) (path : Path) : Prop where
  hist : History.WF w.hist
  tokens : Lex.Line line toks
  user : UserLine A.plat toks
  here : w.tree.locate w.current = some path
  clean : CleanLine A.plat w.dis path toks

/-- The concrete cases: a line fed to the sample session in the root menu (with `sub` or anything else disabled or not). -/
theorem sample_ready (dis : Id → Bool) (line : Str) (toks : List Str) (hl : Split.split line = .ok toks) (hne : toks ≠ [])
    (hg : toks.head? ∉ [some bs!"help", some bs!"exit", some bs!"history", some bs!"!"])
    (hc : (cands dis toks [(Sample.root, Sample.kids)]).all (fun x => match x.2 with | .cmd c args => cleanB plat c args | .menu _ => true) = true) :
    Ready Sample.app { Sample.world with dis := dis } line toks [(Sample.root, Sample.kids)] where
  hist := History.wf_init 10
  tokens := (split_iff _ _).1 hl
  user := {
    nonempty := hne
    notGlobal := by intro b hb; cases hb <;> simp at hg
    ctype := by intro arg h; subst h; simp at hg }
  here := rfl
  clean := cleanLine_of hc

theorem wrongs_append (a b : List Event) : wrongs (a ++ b) = wrongs a ++ wrongs b := by simp [wrongs, List.filterMap_append]

theorem wrong_log (line : Str) (w : World σ τ) : (wrongCommand A line w).1.log = w.log ++ [.wrong line] := by
  unfold wrongCommand
  simp only
  split
  · exact (effect_same (w.note (.wrong line)) _).2.1
  · rfl

theorem report_log (line : Str) (e : Exn) (w : World σ τ) : (reportException A line e w).1.log = w.log ++ [.reported line e] := by
  unfold reportException
  simp only
  split
  · exact (effect_same (w.note (.reported line e)) _).2.1
  · rfl

/-- The event that reports an exception. -/
def reportOf (line : Str) : Option Exn → List Event
  | none => []
  | some .other => [.unknown line]
  | some e => [.reported line e]

theorem afterHandler_log (line : Str) (x : Option Exn) (w : World σ τ) : (afterHandler A line x w).1.log = w.log ++ reportOf line x := by
  cases x with
  | none => simp [afterHandler, reportOf]
  | some e =>
    cases e with
    | other => rfl
    | std s => exact report_log A line _ w
    | badCast s => exact report_log A line _ w

theorem afterHandler_std (line : Str) (e : Exn) (he : e ≠ .other) (u : World σ τ) : afterHandler A line (some e) u = reportException A line e u := by
  cases e with
  | other => exact absurd rfl he
  | std s => rfl
  | badCast s => rfl

theorem afterHandler_other (line : Str) (w : World σ τ) : afterHandler A line (some .other) w =
    ((w.note (.unknown line)).put (bs!"Cli. Unknown exception caught handling command line \"" ++ line ++ bs!"\"\n"), none) := rfl

attribute [local irreducible] afterHandler

theorem reportOf_calls (line : Str) (x : Option Exn) : calls (reportOf line x) = [] ∧ wrongs (reportOf line x) = [] := by
  cases x with
  | none => exact ⟨rfl, rfl⟩
  | some e => cases e <;> exact ⟨rfl, rfl⟩

/-- **C11** (partial; missing: a handler that throws `bad_cast`, see `C19_bad_cast_runs_another_handler_refuted`) The first usable designation in search order wins: entries of the current menu in insertion order (each searched depth-first), then the enclosing menus; a
    designation is usable if the number of arguments is right and all of them convert. Its handler is called, once, with the converted
    arguments, and no other one (unless it throws `bad_cast`, see C19). Holds whatever other handlers would do. -/
theorem C11_first_match_wins_partial (fuel : Nat) (w : World σ τ) (line : Str) (toks : List Str) (path : Path) (hr : Ready A w line toks path)
    (c : Cmd) (args : List Str) (vals : List Value) (hc : Chosen A.plat w.dis path toks (.cmd c args)) (ha : Accepts A.plat c args vals)
    (hb : ¬ c.Swallows (A.handler c.fn w.app vals).exn) :
    ∃ w' x, feed A (fuel + 1) line w = .ok (w', x) ∧
      w'.log = w.log ++ .ran c vals w.snap (A.handler c.fn w.app vals).exn :: reportOf line (A.handler c.fn w.app vals).exn := by
  obtain ⟨h, hh, _⟩ := History.newCommand_ok hr.hist line
  rcases feed_cases A hr.tokens hr.user fuel w hh hr.here hr.clean with ⟨h1, _⟩ | ⟨m, k, q, h1, _⟩ | ⟨c', args', vals', h1, h2, h3⟩
  · exfalso
    obtain ⟨he, cs, hd, _⟩ := hc
    exact h1 c args vals ((designatesCmd_iff _ _ _ _ _).2 ⟨cs, (mem_cands _ _ _ _).2 ⟨he, hd⟩⟩) ha
  · cases chosen_unique hc h1
  · cases chosen_unique hc h1
    cases accepts_unique ha h2
    refine ⟨_, _, h3 hb, ?_⟩
    rw [afterHandler_log]
    simp only [World.note, (effect_same (w.entered h) _).2.1]
    simp [World.entered]

/-- `add 1 2` runs the first `add`, `add 1 x` the second. -/
example : ∃ w' x, feed Sample.app 1 bs!"add 1 x" Sample.world = .ok (w', x) ∧
    w'.log = Sample.world.log ++ .ran Sample.addStr [.str bs!"1", .str bs!"x"] Sample.world.snap none :: reportOf bs!"add 1 x" none :=
  C11_first_match_wins_partial Sample.app 0 Sample.world bs!"add 1 x" [bs!"add", bs!"1", bs!"x"] _ (sample_ready _ _ _ rfl (by simp) (by decide) (by decide +kernel))
    Sample.addStr [bs!"1", bs!"x"] _ (chosen_of (by decide +kernel)) (.cons rfl (.cons rfl .nil)) (by rintro ⟨_, _, h⟩; cases h)
example : (feed Sample.app 1 bs!"add 1 2" Sample.world).map (fun r => calls r.1.log) = .ok [(Sample.addInt, [.int 1, .int 2])] := by rfl

/-- **C10** (partial; missing: conversions that throw or are undefined, see `C10_refuted_throws`) If the line designates a command with fitting arguments, or a menu, and no handler throws `bad_cast`, then it is not reported as a wrong
    command; a handler is called if no menu is designated. -/
theorem C10_designated_not_wrong_partial (hA : A.NoBadCast) (fuel : Nat) (w : World σ τ) (line : Str) (toks : List Str) (path : Path) (hr : Ready A w line toks path)
    (hd : (∃ c args vals, DesignatesCmd w.dis path toks c args ∧ Accepts A.plat c args vals) ∨ (∃ q, DesignatesMenu w.dis path toks q)) :
    ∃ w' x evs, feed A (fuel + 1) line w = .ok (w', x) ∧ w'.log = w.log ++ evs ∧ wrongs evs = [] ∧
      ((∀ q, ¬ DesignatesMenu w.dis path toks q) → ∃ c args vals, calls evs = [(c, vals)] ∧ DesignatesCmd w.dis path toks c args ∧ Accepts A.plat c args vals) := by
  obtain ⟨h, hh, _⟩ := History.newCommand_ok hr.hist line
  rcases feed_cases A hr.tokens hr.user fuel w hh hr.here hr.clean with ⟨h1, h2, _⟩ | ⟨m, k, q, h1, h2⟩ | ⟨c, args, vals, h1, h2, h3⟩
  · exfalso
    rcases hd with ⟨c, args, vals, hd, ha⟩ | ⟨q, hd⟩
    · exact h1 c args vals hd ha
    · exact h2 q hd
  · refine ⟨_, _, [], h2, by simp [World.entered], rfl, fun hno => ?_⟩
    obtain ⟨he, cs, hd, _⟩ := h1
    exact absurd ((designatesMenu_iff _ _ _ _).2 ⟨cs, (mem_cands _ _ _ _).2 ⟨he, hd⟩⟩) (hno _)
  · have hb : ¬ c.Swallows (A.handler c.fn w.app vals).exn := fun ⟨_, what, hx⟩ => hA _ _ _ _ hx
    obtain ⟨w', x, f1, f2⟩ := C11_first_match_wins_partial A fuel w line toks path hr c args vals h1 h2 hb
    refine ⟨w', x, _, f1, f2, ?_, fun _ => ?_⟩
    · show wrongs (reportOf line _) = []
      exact (reportOf_calls _ _).2
    · obtain ⟨he, cs, hd, _⟩ := h1
      refine ⟨c, args, vals, ?_, (designatesCmd_iff _ _ _ _ _).2 ⟨cs, (mem_cands _ _ _ _).2 ⟨he, hd⟩⟩, h2⟩
      show (c, vals) :: calls (reportOf line _) = _
      rw [(reportOf_calls _ _).1]

theorem sample_noBadCast : Sample.tame.NoBadCast := sample_tame.1

example : (∃ q, DesignatesMenu Sample.world.dis [(Sample.root, Sample.kids)] [bs!"sub", bs!"deep"] q) :=
  ⟨[(Sample.deep, Sample.deepKids), (Sample.sub, Sample.subKids), (Sample.root, Sample.kids)],
    (designatesMenu_iff _ _ _ _).2 ⟨[2, 2], by decide +kernel⟩⟩

/-- **C10** (partial, as before) If it designates only one command with fitting arguments, and no menu, exactly that command's handler is called, once. -/
theorem C10_only_command_runs_partial (hA : A.NoBadCast) (fuel : Nat) (w : World σ τ) (line : Str) (toks : List Str) (path : Path) (hr : Ready A w line toks path)
    (c : Cmd) (args : List Str) (vals : List Value) (hd : DesignatesCmd w.dis path toks c args) (ha : Accepts A.plat c args vals)
    (honly : ∀ c' args' vals', DesignatesCmd w.dis path toks c' args' → Accepts A.plat c' args' vals' → c' = c ∧ args' = args)
    (hmenu : ∀ q, ¬ DesignatesMenu w.dis path toks q) :
    ∃ w' x evs, feed A (fuel + 1) line w = .ok (w', x) ∧ w'.log = w.log ++ evs ∧ wrongs evs = [] ∧ calls evs = [(c, vals)] := by
  obtain ⟨w', x, evs, h1, h2, h3, h4⟩ := C10_designated_not_wrong_partial A hA fuel w line toks path hr (.inl ⟨c, args, vals, hd, ha⟩)
  obtain ⟨c', args', vals', h5, h6, h7⟩ := h4 hmenu
  obtain ⟨rfl, rfl⟩ := honly _ _ _ h6 h7
  rw [accepts_unique ha h7]
  exact ⟨w', x, evs, h1, h2, h3, h5⟩

/-- `sub go` designates `go` only. -/
example : ∃ w' x evs, feed Sample.tame 1 bs!"sub go" Sample.world = .ok (w', x) ∧ w'.log = Sample.world.log ++ evs ∧ wrongs evs = [] ∧ calls evs = [(Sample.go, [])] := by
  have hc : cands Sample.world.dis [bs!"sub", bs!"go"] [(Sample.root, Sample.kids)] = [([2, 0], .cmd Sample.go [])] := by decide +kernel
  have hr := sample_ready (fun _ => false) bs!"sub go" [bs!"sub", bs!"go"] rfl (by simp) (by decide) (by decide +kernel)
  refine C10_only_command_runs_partial Sample.tame sample_noBadCast 0 Sample.world bs!"sub go" [bs!"sub", bs!"go"] [(Sample.root, Sample.kids)]
    ⟨hr.hist, hr.tokens, hr.user, hr.here, hr.clean⟩ Sample.go [] [] ((designatesCmd_iff _ _ _ _ _).2 ⟨_, by rw [hc]; exact List.mem_singleton.2 rfl⟩) .nil ?_ ?_
  · intro c' args' vals' hd _
    obtain ⟨cs, hm⟩ := (designatesCmd_iff _ _ _ _ _).1 hd
    rw [hc, List.mem_singleton] at hm
    cases hm; exact ⟨rfl, rfl⟩
  · intro q hd
    obtain ⟨cs, hm⟩ := (designatesMenu_iff _ _ _ _).1 hd
    rw [hc, List.mem_singleton] at hm
    cases hm

/-- **C12** (partial; missing: conversions that throw or are undefined, see `C12_refuted_throws`) A line that designates no built-in command is reported as a wrong command iff it designates neither a command with fitting arguments nor a menu (if no handler throws
    `bad_cast`); then it is reported exactly once, as it was fed, and no handler is called. -/
theorem C12_wrong_iff_nothing_matches_partial (hA : A.NoBadCast) (fuel : Nat) (w : World σ τ) (line : Str) (toks : List Str) (path : Path) (hr : Ready A w line toks path) :
    ∃ w' x evs, feed A (fuel + 1) line w = .ok (w', x) ∧ w'.log = w.log ++ evs ∧
      (((∀ c args vals, DesignatesCmd w.dis path toks c args → ¬ Accepts A.plat c args vals) ∧ (∀ q, ¬ DesignatesMenu w.dis path toks q) ∧
          wrongs evs = [line] ∧ calls evs = []) ∨
       (((∃ c args vals, DesignatesCmd w.dis path toks c args ∧ Accepts A.plat c args vals) ∨ (∃ q, DesignatesMenu w.dis path toks q)) ∧ wrongs evs = [])) := by
  by_cases hd : (∃ c args vals, DesignatesCmd w.dis path toks c args ∧ Accepts A.plat c args vals) ∨ (∃ q, DesignatesMenu w.dis path toks q)
  · obtain ⟨w', x, evs, h1, h2, h3, _⟩ := C10_designated_not_wrong_partial A hA fuel w line toks path hr hd
    exact ⟨w', x, evs, h1, h2, .inr ⟨hd, h3⟩⟩
  · simp only [not_or, not_exists, not_and] at hd
    obtain ⟨h, hh, _⟩ := History.newCommand_ok hr.hist line
    rcases feed_cases A hr.tokens hr.user fuel w hh hr.here hr.clean with ⟨h1, h2, h3⟩ | ⟨m, k, q, ⟨he, cs, hdes, _⟩, h2⟩ | ⟨c, args, vals, ⟨he, cs, hdes, _⟩, h2, h3⟩
    · refine ⟨_, _, [.wrong line] ++ reportOf line (wrongCommand A line (w.entered h)).2, h3, ?_, .inl ⟨h1, h2, ?_⟩⟩
      · rw [afterHandler_log, wrong_log, List.append_assoc]; rfl
      · rw [wrongs_append, calls_append, (reportOf_calls _ _).1, (reportOf_calls _ _).2]
        exact ⟨rfl, rfl⟩
    · exact absurd ((designatesMenu_iff _ _ _ _).2 ⟨cs, (mem_cands _ _ _ _).2 ⟨he, hdes⟩⟩) (hd.2 _)
    · exact absurd h2 (hd.1 _ _ _ ((designatesCmd_iff _ _ _ _ _).2 ⟨cs, (mem_cands _ _ _ _).2 ⟨he, hdes⟩⟩))

example : (feed Sample.tame 1 bs!"  add \"1  ' x y" Sample.world).map (fun r => (calls r.1.log, wrongs r.1.log)) = .ok ([], [bs!"  add \"1  ' x y"]) := by rfl
example : (feed Sample.tame 1 bs!"add 1" Sample.world).map (fun r => (calls r.1.log, wrongs r.1.log)) = .ok ([], [bs!"add 1"]) := by rfl

/-- **C12** Without any assumption on the handlers: if such a line is reported as a wrong command, then once, as it was fed, and every handler that was called
    before has thrown `bad_cast` (none has completed). -/
theorem C12_wrong_no_completion (fuel : Nat) (w w' : World σ τ) (x : Option Exn) (line : Str) (toks : List Str) (hl : Lex.Line line toks)
    (hu : UserLine A.plat toks) (h : feed A (fuel + 1) line w = .ok (w', x)) :
    ∃ evs, w'.log = w.log ++ evs ∧ (wrongs evs = [] ∨
      (wrongs evs = [line] ∧ ∀ c vals s e, .ran c vals s e ∈ evs → ∃ what, e = some (.badCast what))) := by
  rw [feed_eq A hl hu.nonempty] at h
  split at h
  · cases h
  · rename_i h1 hh
    unfold body at h
    rw [scanGlobal_user A _ hu] at h
    simp only at h
    have hlog : ∀ w2 o, catchAll A line (.ok (w2, o)) = .ok (w', x) → ∃ e2, w'.log = w2.log ++ e2 ∧ calls e2 = [] ∧ wrongs e2 = [] := by
      intro w2 o hc
      cases o with
      | found => cases hc; exact ⟨[], by simp, rfl, rfl⟩
      | notFound => cases hc; exact ⟨[], by simp, rfl, rfl⟩
      | thrown e =>
        have := catchAll_eq A line w2 (some e)
        simp only at this
        rw [this] at hc
        simp only [Except.ok.injEq] at hc
        have hl2 := afterHandler_log A line (some e) w2
        rw [hc] at hl2
        exact ⟨_, hl2, (reportOf_calls _ _).1, (reportOf_calls _ _).2⟩
    have noran : ∀ e2 : List Event, calls e2 = [] → ∀ c vals s e, .ran c vals s e ∉ e2 := by
      intro e2 hc c vals s e hm
      simp only [calls, List.filterMap_eq_nil_iff] at hc
      simpa using hc _ hm
    cases hs : scanCurrent A toks (w.entered h1) with
    | error f => simp [userPart, hs, catchAll] at h
    | ok v =>
      obtain ⟨w2, o⟩ := v
      have hg : ∃ path, (w.entered h1).tree.locate (w.entered h1).current = some path ∧ scanCmds A toks path (w.entered h1) = .ok (w2, o) := by
        unfold scanCurrent at hs
        split at hs
        · cases hs
        · rename_i path hp; exact ⟨path, hp, hs⟩
      obtain ⟨path, _, hg⟩ := hg
      obtain ⟨_, _, _, _, _, evs, g6, g7, _, _, _, g11⟩ := good_scanCmds A toks hu.nonempty path _ _ _ hg
      have hwr : wrongs evs = [] := by
        simp only [wrongs, List.filterMap_eq_nil_iff]
        intro e he
        obtain ⟨d, c, a, v, y, cs, rfl, _⟩ := g7 e he
        rfl
      by_cases ho : o = .notFound
      · subst ho
        cases hw : wrongCommand A line w2 with
        | mk w3 y =>
          have hwl := wrong_log A line w2
          rw [hw] at hwl
          have : ∃ o', userPart A line toks (w.entered h1) = .ok (w3, o') := by
            unfold userPart
            rw [hs]
            simp only [hw]
            cases y with
            | none => exact ⟨.found, rfl⟩
            | some e => exact ⟨.thrown e, rfl⟩
          obtain ⟨o', ho'⟩ := this
          rw [ho'] at h
          obtain ⟨e2, l2, c2, wr2⟩ := hlog w3 o' h
          refine ⟨evs ++ [.wrong line] ++ e2, ?_, .inr ⟨?_, ?_⟩⟩
          · rw [l2, hwl, g6]; simp [World.entered]
          · rw [wrongs_append, wrongs_append, hwr, wr2]; rfl
          · intro c vals s e hm
            rw [List.mem_append, List.mem_append] at hm
            rcases hm with (hm | hm) | hm
            · obtain ⟨c', v', s', what, heq⟩ := g11 rfl _ hm
              cases heq; exact ⟨what, rfl⟩
            · simp at hm
            · exact absurd hm (noran e2 c2 _ _ _ _)
      · have : userPart A line toks (w.entered h1) = .ok (w2, o) := by
          unfold userPart
          rw [hs]
          cases o with
          | notFound => exact absurd rfl ho
          | found => rfl
          | thrown e => rfl
        rw [this] at h
        obtain ⟨e2, l2, c2, wr2⟩ := hlog w2 o h
        refine ⟨evs ++ e2, ?_, .inl ?_⟩
        · rw [l2, g6]; simp [World.entered]
        · rw [wrongs_append, hwr, wr2]; rfl

/-- A handler that throws `bad_cast`, and no other command fits: the line is reported as wrong. -/
example : (feed Sample.app 1 bs!"cast" { Sample.world with dis := fun i => i == 8 }).map (fun r => (calls r.1.log, wrongs r.1.log)) =
    .ok ([(Sample.cast, [])], [bs!"cast"]) := by rfl

/-! ### C16: built-in commands -/

/-- **C16** In every menu, enabled or not, and whatever user commands exist: a line that designates a built-in command runs it before anything else (its event is the first one; the
    only other possibility is a fault inside the built-in command, see C20, C26, C27). -/
theorem C16_builtin_runs (fuel : Nat) (w : World σ τ) (hw : History.WF w.hist) (line : Str) (toks : List Str) (b : Builtin) (hl : Lex.Line line toks) (hg : GlobalLine toks b) :
    (∃ f, feed A (fuel + 1) line w = .error f) ∨ ∃ w' x evs, feed A (fuel + 1) line w = .ok (w', x) ∧ w'.log = w.log ++ .builtin b :: evs := by
  have ht : toks ≠ [] := by cases hg <;> simp
  obtain ⟨h, hh, _⟩ := History.newCommand_ok hw line
  cases hf : feed A (fuel + 1) line w with
  | error f => exact .inl ⟨f, rfl⟩
  | ok v =>
    obtain ⟨w', x⟩ := v
    refine .inr ⟨w', x, ?_⟩
    suffices ∃ evs, w'.log = w.log ++ .builtin b :: evs by
      obtain ⟨evs, he⟩ := this
      exact ⟨evs, rfl, he⟩
    rw [feed_eq A hl ht, hh] at hf
    simp only at hf
    -- every continuation only extends the log
    have ext : ∀ (w1 w2 : World σ τ), (∃ evs, w1.log = w.log ++ .builtin b :: evs) → (∃ e2, w2.log = w1.log ++ e2) → ∃ evs, w2.log = w.log ++ .builtin b :: evs := by
      rintro w1 w2 ⟨evs, h1⟩ ⟨e2, h2⟩
      exact ⟨evs ++ e2, by rw [h2, h1]; simp⟩
    have hglob : ∀ w2 o, scanGlobal A (feed A fuel) toks (w.entered h) = .ok (w2, o) → ∃ evs, w2.log = w.log ++ .builtin b :: evs := by
      intro w2 o hs
      cases hg with
      | help =>
        simp only [scanGlobal, if_true, bind, Except.bind, helpCmd] at hs
        split at hs
        · cases hs
        · rename_i he
          split at he
          · cases he
          · cases he; cases hs; exact ⟨[], by simp [World.put, World.note, World.entered]⟩
      | exit =>
        have e1 : ¬ bs!"exit" = bs!"help" := by decide
        simp only [scanGlobal, if_true, e1, if_false, bind, Except.bind] at hs
        split at hs
        · cases hs
        · rename_i v he
          obtain ⟨w3, x3⟩ := v
          cases hs
          obtain ⟨evs, hq, _⟩ := quiet_exit A _ _ _ he
          exact ⟨evs, by rw [hq]; simp [World.note, World.entered]⟩
      | history =>
        have e1 : ¬ bs!"history" = bs!"help" := by decide
        have e2 : ¬ bs!"history" = bs!"exit" := by decide
        simp only [scanGlobal, if_true, e1, e2, if_false] at hs
        split at hs <;> cases hs <;> exact ⟨[], by simp [World.put, World.note, World.entered]⟩
      | bang h1 h2 =>
        rename_i arg n
        rw [scanGlobal_bang A _ _ h1 h2] at hs
        unfold bangPart at hs
        split at hs
        · cases hs
        · split at hs
          · cases hs
          · cases hs; exact ⟨[], by simp [World.note, World.entered]⟩
          · split at hs
            · cases hs
            · rename_i hfd
              cases hs
              obtain ⟨evs, hq, _⟩ := sound_feed A fuel _ _ _ _ hfd
              exact ⟨evs, by rw [hq]; simp [World.note, World.entered]⟩
    unfold body at hf
    cases hs : scanGlobal A (feed A fuel) toks (w.entered h) with
    | error f => rw [hs] at hf; simp [catchAll] at hf
    | ok v =>
      obtain ⟨w2, o⟩ := v
      have h2 := hglob w2 o hs
      rw [hs] at hf
      by_cases ho : o = .notFound
      · subst ho
        simp only at hf
        cases hu : userPart A line toks w2 with
        | error f => rw [hu] at hf; simp [catchAll] at hf
        | ok v =>
          obtain ⟨w3, o3⟩ := v
          rw [hu] at hf
          obtain ⟨e3, h3, _⟩ := quiet_catchAll A line _ _ _ _ hf
          have : ∃ e2, w3.log = w2.log ++ e2 := by
            unfold userPart at hu
            split at hu
            · rename_i w4 hsc
              obtain ⟨e4, l4, _⟩ := sound_scanCurrent A hl ht [line] (by simp) _ _ _ hsc
              have q := quiet_wrong A line w4
              split at hu
              · rename_i hw4; rw [hw4] at q; cases hu; obtain ⟨e5, l5, _⟩ := q; exact ⟨e4 ++ e5, by rw [l5, l4, List.append_assoc]⟩
              · rename_i hw4; rw [hw4] at q; cases hu; obtain ⟨e5, l5, _⟩ := q; exact ⟨e4 ++ e5, by rw [l5, l4, List.append_assoc]⟩
            · obtain ⟨e4, l4, _⟩ := sound_scanCurrent A hl ht [line] (by simp) _ _ _ hu
              exact ⟨e4, l4⟩
          exact ext w3 w' (ext w2 w3 h2 this) ⟨e3, h3⟩
      · have : catchAll A line (.ok (w2, o)) = .ok (w', x) := by
          cases o with
          | notFound => exact absurd rfl ho
          | found => exact hf
          | thrown e => exact hf
        obtain ⟨e3, h3, _⟩ := quiet_catchAll A line _ _ _ _ this
        exact ext w2 w' h2 ⟨e3, h3⟩

/-- Although the sample application has a command named `help`, and in a disabled menu. -/
example : (feed Sample.app 1 bs!" 'help' " { Sample.world with dis := fun i => i == 0 }).map (fun r => (r.1.app, calls r.1.log, r.1.io.out.take 19)) =
    .ok ([], [], bs!"Commands available:") := by rfl
example : (feed Sample.app 1 bs!"exit" { Sample.world with current := 12 }).map (fun r => r.1.exit) = .ok true := by rfl

/-- **C16** … and, unless user code throws `bad_cast`, nothing else: `help`, `exit` and `history` call no command handler and report no wrong command. -/
theorem C16_builtin_only (hA : A.Tame) (fuel : Nat) (w w' : World σ τ) (x : Option Exn) (line : Str) (toks : List Str) (b : Builtin) (hl : Lex.Line line toks)
    (hg : GlobalLine toks b) (hb : ∀ n, b ≠ .bang n) (h : feed A (fuel + 1) line w = .ok (w', x)) :
    ∃ evs, w'.log = w.log ++ .builtin b :: evs ∧ calls evs = [] ∧ wrongs evs = [] := by
  have ht : toks ≠ [] := by cases hg <;> simp
  rw [feed_eq A hl ht] at h
  split at h
  · cases h
  · rename_i h1 hh
    have hglob : ∀ w2 o, scanGlobal A (feed A fuel) toks (w.entered h1) = .ok (w2, o) →
        ∃ evs, w2.log = w.log ++ .builtin b :: evs ∧ calls evs = [] ∧ wrongs evs = [] := by
      intro w2 o hs
      cases hg with
      | help =>
        simp only [scanGlobal, if_true, bind, Except.bind, helpCmd] at hs
        split at hs
        · cases hs
        · rename_i he
          split at he
          · cases he
          · cases he; cases hs; exact ⟨[], by simp [World.put, World.note, World.entered], rfl, rfl⟩
      | exit =>
        have e1 : ¬ bs!"exit" = bs!"help" := by decide
        simp only [scanGlobal, if_true, e1, if_false, bind, Except.bind] at hs
        split at hs
        · cases hs
        · rename_i v he
          obtain ⟨w3, x3⟩ := v
          cases hs
          have : ∃ evs, w3.log = ((w.entered h1).note (.builtin .exit)).log ++ evs ∧ calls evs = [] ∧ wrongs evs = [] := by
            have act : ∀ (a : Option (σ → Effect σ)) (ev : Event) (hc : calls [ev] = []) (hw : wrongs [ev] = []) (u : World σ τ),
                ∃ evs, (optAction a ev u).1.log = u.log ++ evs ∧ calls evs = [] ∧ wrongs evs = [] := by
              intro a ev hc hw u
              cases a with
              | none => exact ⟨[], by simp [optAction], rfl, rfl⟩
              | some f => exact ⟨[ev], (effect_same (u.note ev) _).2.1, hc, hw⟩
            rw [exitSession_eq] at he
            split at he
            · cases he; exact ⟨[], by simp, rfl, rfl⟩
            · rename_i f hf
              obtain ⟨e1, l1, c1, r1⟩ := act (some f) .exitSession rfl rfl ((w.entered h1).note (.builtin .exit))
              split at he
              · rename_i ha; rw [ha] at l1; cases he; exact ⟨e1, l1, c1, r1⟩
              · rename_i w4 ha
                rw [ha] at l1
                obtain ⟨e2, l2, c2, r2⟩ := act A.exitGlobal .exitGlobal rfl rfl w4
                split at he
                · rename_i hb'; rw [hb'] at l2; cases he
                  exact ⟨e1 ++ e2, by rw [l2, l1, List.append_assoc], by rw [calls_append, c1, c2]; rfl, by rw [wrongs_append, r1, r2]; rfl⟩
                · rename_i w5 hb'
                  rw [hb'] at l2
                  split at he
                  · cases he
                  · rename_i cmds _
                    split at he
                    · cases he
                      exact ⟨e1 ++ e2, by simp only; rw [l2, l1, List.append_assoc], by rw [calls_append, c1, c2]; rfl, by rw [wrongs_append, r1, r2]; rfl⟩
                    cases he
                    refine ⟨e1 ++ e2 ++ [.saved cmds], ?_, ?_, ?_⟩
                    · simp only [World.note]; rw [l2, l1]; simp [World.note]
                    · rw [calls_append, calls_append, c1, c2]; rfl
                    · rw [wrongs_append, wrongs_append, r1, r2]; rfl
          obtain ⟨evs, l, c, r⟩ := this
          exact ⟨evs, by rw [l]; simp [World.note, World.entered], c, r⟩
      | history =>
        have e1 : ¬ bs!"history" = bs!"help" := by decide
        have e2 : ¬ bs!"history" = bs!"exit" := by decide
        simp only [scanGlobal, if_true, e1, e2, if_false] at hs
        split at hs <;> cases hs <;> exact ⟨[], by simp [World.put, World.note, World.entered], rfl, rfl⟩
      | bang => exact absurd rfl (hb _)
    unfold body at h
    cases hs : scanGlobal A (feed A fuel) toks (w.entered h1) with
    | error f => rw [hs] at h; simp [catchAll] at h
    | ok v =>
      obtain ⟨w2, o⟩ := v
      obtain ⟨evs, l2, c2, r2⟩ := hglob w2 o hs
      rw [hs] at h
      have ho : o ≠ .notFound := by
        rintro rfl
        exact (scanGlobal_notFound A hA fuel toks ht _ _ hs).2 _ hg
      replace h : catchAll A line (.ok (w2, o)) = .ok (w', x) := by
        cases o with
        | notFound => exact absurd rfl ho
        | found => exact h
        | thrown e => exact h
      cases o with
      | notFound => exact absurd rfl ho
      | found => cases h; exact ⟨evs, l2, c2, r2⟩
      | thrown e =>
        have hc := catchAll_eq A line w2 (some e)
        simp only at hc
        rw [hc] at h
        simp only [Except.ok.injEq] at h
        have hl2 := afterHandler_log A line (some e) w2
        rw [h] at hl2
        refine ⟨evs ++ reportOf line (some e), ?_, ?_, ?_⟩
        · rw [hl2, l2]; simp
        · rw [calls_append, c2, (reportOf_calls _ _).1]; rfl
        · rw [wrongs_append, r2, (reportOf_calls _ _).2]; rfl

example : GlobalLine [bs!"!", bs!"+07"] (.bang 7) :=
  .bang ⟨bs!"07", .inr rfl, ⟨by decide, by unfold Number.Digit; decide⟩, rfl⟩ (by decide)

/-! ### C18, C19: exceptions -/

/-- **C18** No exception leaves `Feed`, except one that the user's exception handler itself throws. -/
theorem C18_no_exception_escapes (fuel : Nat) (line : Str) (w w' : World σ τ) (e : Exn) (h : feed A fuel line w = .ok (w', some e)) :
    ∃ f s l e', A.onException = some f ∧ (f s l e').exn = some e := by
  cases fuel with
  | zero => cases h
  | succ fuel =>
    obtain ⟨toks, hl⟩ := line_exists line
    by_cases ht : toks = []
    · subst ht; rw [feed_blank A hl] at h; cases h
    · rw [feed_eq A hl ht] at h
      split at h
      · cases h
      · unfold catchAll at h
        split at h
        · cases h
        · cases h
        · rename_i w1 e1 _
          simp only [Except.ok.injEq, reportException] at h
          split at h
          · rename_i f hf
            rw [Prod.mk.injEq] at h
            exact ⟨f, _, _, _, hf, h.2⟩
          · rw [Prod.mk.injEq] at h; cases h.2
        · cases h

/-- The exception of the exception handler does leave `Feed`. -/
example : (feed { Sample.app with onException := some fun s _ _ => ⟨s, [], some (.std bs!"again")⟩ } 1 bs!"boom" Sample.world).map (fun r => r.2) =
    .ok (some (.std bs!"again")) := by rfl

/-- **C18, C19** (partial) An exception thrown by the handler of the command that a line runs — a `std::exception` that is not a `bad_cast`, or any `std::exception` if
    the command is a free-form one — is given to the exception handler together with the line, or its message is printed if there is none; nothing else is called; the session
    stays in the same menu, with the line recorded in its history, and is not closed.
    Missing: a `bad_cast` thrown by another command's handler (refuted below). -/
theorem C19_exception_reported_partial (fuel : Nat) (w : World σ τ) (line : Str) (toks : List Str) (path : Path) (hr : Ready A w line toks path)
    (c : Cmd) (args : List Str) (vals : List Value) (hc : Chosen A.plat w.dis path toks (.cmd c args)) (ha : Accepts A.plat c args vals)
    (e : Exn) (he : (A.handler c.fn w.app vals).exn = some e) (hs : e ≠ .other) (hb : c.kind = .freeform ∨ ∀ what, e ≠ .badCast what) :
    ∃ w' x, feed A (fuel + 1) line w = .ok (w', x) ∧ w'.log = w.log ++ [.ran c vals w.snap (some e), .reported line e] ∧
      w'.current = w.current ∧ w'.exit = w.exit ∧ History.newCommand w.hist line = .ok w'.hist ∧
      (A.onException = none → x = none ∧ w'.io.out = (w.effect (A.handler c.fn w.app vals)).io.out ++ e.what ++ bs!"\n") := by
  obtain ⟨h, hh, _⟩ := History.newCommand_ok hr.hist line
  have hsw : ¬ c.Swallows (A.handler c.fn w.app vals).exn := by
    rintro ⟨hk, what, hx⟩
    rcases hb with hb | hb
    · exact hk hb
    · rw [he] at hx; cases hx; exact hb what rfl
  rcases feed_cases A hr.tokens hr.user fuel w hh hr.here hr.clean with ⟨h1, _⟩ | ⟨m, k, q, h1, _⟩ | ⟨c', args', vals', h1, h2, h3⟩
  · exfalso
    obtain ⟨hen, cs, hd, _⟩ := hc
    exact h1 c args vals ((designatesCmd_iff _ _ _ _ _).2 ⟨cs, (mem_cands _ _ _ _).2 ⟨hen, hd⟩⟩) ha
  · cases chosen_unique hc h1
  · cases chosen_unique hc h1
    cases accepts_unique ha h2
    have h3 := h3 hsw
    have hrep := afterHandler_std (τ := τ) A line e hs
    obtain ⟨s1, s2, _⟩ := effect_same (w.entered h) (A.handler c.fn w.app vals)
    refine ⟨_, _, h3, ?_, ?_, ?_, ?_, ?_⟩
    · rw [afterHandler_log, he]
      have : reportOf line (some e) = [.reported line e] := by
        cases e with
        | other => exact absurd rfl hs
        | std s => rfl
        | badCast s => rfl
      rw [this]
      simp only [World.note, s2]
      simp [World.entered]
    · rw [he, hrep]
      unfold reportException
      simp only
      split
      · rw [(effect_same _ _).1.current]; exact s1.current
      · exact s1.current
    · rw [he, hrep]
      unfold reportException
      simp only
      split
      · rw [(effect_same _ _).1.exit]; exact s1.exit
      · exact s1.exit
    · rw [he, hrep, hh]
      unfold reportException
      simp only
      split
      · rw [(effect_same _ _).1.hist]; exact congrArg _ s1.hist.symm
      · exact congrArg _ s1.hist.symm
    · intro hn
      rw [he, hrep]
      unfold reportException
      rw [hn]
      refine ⟨rfl, ?_⟩
      -- user code does the same whatever is in the history
      have hio : ∀ (acts : List Act) (u v : World σ τ), u.io = v.io → u.tree = v.tree → u.used = v.used →
          (acts.foldl World.act u).io = (acts.foldl World.act v).io := by
        intro acts
        induction acts with
        | nil => intro u v h1 _ _; exact h1
        | cons a acts ih =>
          intro u v h1 h2 h3
          simp only [List.foldl_cons]
          cases a <;> simp only [World.act, h1, h2, h3]
          all_goals first
            | (split
               · exact ih _ _ (by simp [h1]) (by simp [h2]) (by simp [h3])
               · exact ih _ _ h1 h2 h3)
            | exact ih _ _ (by simp [World.put, h1]) (by simp [World.put, h2]) (by simp [World.put, h3])
      have := hio (A.handler c.fn w.app vals).acts { w.entered h with app := (A.handler c.fn w.app vals).app }
        { w with app := (A.handler c.fn w.app vals).app } rfl rfl rfl
      simp only [World.put, World.note, Io.put, World.effect, List.append_assoc]
      rw [this]

example : ∃ w' x, feed Sample.app 1 bs!"boom" Sample.world = .ok (w', x) ∧
    w'.log = Sample.world.log ++ [.ran Sample.boom [] Sample.world.snap (some (.std bs!"no")), .reported bs!"boom" (.std bs!"no")] := by
  obtain ⟨w', x, h1, h2, _⟩ := C19_exception_reported_partial Sample.app 0 Sample.world bs!"boom" [bs!"boom"] _
    (sample_ready _ _ _ rfl (by simp) (by decide) (by decide +kernel)) Sample.boom [] [] (chosen_of (by decide +kernel)) .nil (.std bs!"no") rfl (by simp) (.inr (by simp))
  exact ⟨w', x, h1, h2⟩
example : (feed Sample.app 1 bs!"boom" Sample.world).map (fun r => (r.1.io.out, r.2)) = .ok (bs!"ok\nno\n", none) := by rfl

/-- **C19** is false of the code: the handler of the command that the line designates throws `std::bad_cast` (a failed `dynamic_cast` of the user's code, say), and this exception is not reported to the
    exception handler; instead the handler of another command is called … -/
theorem C19_bad_cast_runs_another_handler_refuted :
    ∃ (w : World (List Nat) (List Str)) (path : Path), Ready Sample.app w bs!"cast" [bs!"cast"] path ∧ Chosen Sample.app.plat w.dis path [bs!"cast"] (.cmd Sample.cast []) ∧
      (∃ what, (Sample.app.handler Sample.cast.fn w.app []).exn = some (.badCast what)) ∧
      (feed Sample.app 1 bs!"cast" w).map (fun r => (calls r.1.log, r.1.log.length, r.1.io.out)) =
        .ok ([(Sample.cast, []), (Sample.cast2, [])], 2, bs!"ok\nok\n") :=
  ⟨Sample.world, _, sample_ready _ _ _ rfl (by simp) (by decide) (by decide +kernel), chosen_of (by decide +kernel), ⟨_, rfl⟩, rfl⟩

/-- … or the line is reported as a wrong command, although its handler has been called. -/
theorem C19_bad_cast_reported_wrong_refuted :
    ∃ (w : World (List Nat) (List Str)) (path : Path), Ready Sample.app w bs!"cast" [bs!"cast"] path ∧ Chosen Sample.app.plat w.dis path [bs!"cast"] (.cmd Sample.cast []) ∧
      (feed Sample.app 1 bs!"cast" w).map (fun r => (calls r.1.log, wrongs r.1.log, r.1.io.out)) =
        .ok ([(Sample.cast, [])], [bs!"cast"], bs!"ok\nwrong command: cast\n") :=
  ⟨{ Sample.world with dis := fun i => i == 8 }, _, sample_ready _ _ _ rfl (by simp) (by decide) (by decide +kernel), chosen_of (by decide +kernel), rfl⟩

/-- **C18** Something else than a `std::exception` thrown by a handler produces the message 'Unknown exception', and no exception leaves `Feed`. -/
theorem C18_unknown_exception (fuel : Nat) (w : World σ τ) (line : Str) (toks : List Str) (path : Path) (hr : Ready A w line toks path)
    (c : Cmd) (args : List Str) (vals : List Value) (hc : Chosen A.plat w.dis path toks (.cmd c args)) (ha : Accepts A.plat c args vals)
    (he : (A.handler c.fn w.app vals).exn = some .other) :
    ∃ w' out, feed A (fuel + 1) line w = .ok (w', none) ∧ w'.log = w.log ++ [.ran c vals w.snap (some .other), .unknown line] ∧
      w'.io.out = out ++ bs!"Cli. Unknown exception caught handling command line \"" ++ line ++ bs!"\"\n" ∧ w'.current = w.current ∧ w'.exit = w.exit := by
  obtain ⟨h, hh, _⟩ := History.newCommand_ok hr.hist line
  have hsw : ¬ c.Swallows (A.handler c.fn w.app vals).exn := by
    rintro ⟨_, what, hx⟩
    rw [he] at hx; cases hx
  rcases feed_cases A hr.tokens hr.user fuel w hh hr.here hr.clean with ⟨h1, _⟩ | ⟨m, k, q, h1, _⟩ | ⟨c', args', vals', h1, h2, h3⟩
  · exfalso
    obtain ⟨hen, cs, hd, _⟩ := hc
    exact h1 c args vals ((designatesCmd_iff _ _ _ _ _).2 ⟨cs, (mem_cands _ _ _ _).2 ⟨hen, hd⟩⟩) ha
  · cases chosen_unique hc h1
  · cases chosen_unique hc h1
    cases accepts_unique ha h2
    have h3 := h3 hsw
    rw [he, afterHandler_other] at h3
    obtain ⟨s1, s2, _⟩ := effect_same (w.entered h) (A.handler c.fn w.app vals)
    refine ⟨_, ((w.entered h).effect (A.handler c.fn w.app vals)).io.out, h3, ?_, ?_, s1.current, s1.exit⟩
    · simp only [World.note, World.put, s2]
      simp [World.entered]
    · simp [World.note, World.put, Io.put]

example : (feed Sample.app 1 bs!"odd" Sample.world).map (fun r => (calls r.1.log, r.2)) = .ok ([(Sample.odd, [])], none) := by rfl

/-! ### C61: blank lines -/

/-- **C61** Feeding a line without arguments (blank, or only empty quotes) changes nothing at all. -/
theorem C61_blank_line (fuel : Nat) (line : Str) (w : World σ τ) (hl : Lex.Line line []) : feed A (fuel + 1) line w = .ok (w, none) :=
  feed_blank A hl fuel w

example : Lex.Line bs!"  ''  \"\" " [] := (split_iff _ _).1 (by rfl)

end Verif.Props
