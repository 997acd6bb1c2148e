import Verif.Spec.Frontend
import Verif.Proofs.History
import Verif.Props.FileSession

set_option linter.unusedSimpArgs false

/-!
# The same lines in two sessions with histories of different sizes: proofs
-/

namespace Verif.Frontend
open FromString (Value)
open Spec (unsaved NotAboutHistory)
open Props (ends isEnd)

variable {σ σ' τ : Type}

/-- Two effects that look the same and leave related states. -/
def Same (P : σ → σ' → Prop) (e : Effect σ) (e' : Effect σ') : Prop := e.acts = e'.acts ∧ e.exn = e'.exn ∧ P e.app e'.app

/-- Both or neither are set, and they are related. -/
def Both {α β : Type} (R : α → β → Prop) : Option α → Option β → Prop
  | none, none => True
  | some a, some b => R a b
  | _, _ => False

/-- Two applications whose functions do the same in related states. `strict`: leaving a session does not throw. -/
structure Sim (A : App σ τ) (B : App σ' τ) (P : σ → σ' → Prop) (strict : Bool) : Prop where
  plat : B.plat = A.plat
  handler : ∀ f s s' v, P s s' → Same P (A.handler f s v) (B.handler f s' v)
  exception : Both (fun f g => ∀ s s' l e, P s s' → Same P (f s l e) (g s' l e)) A.onException B.onException
  wrong : Both (fun f g => ∀ s s' l, P s s' → Same P (f s l) (g s' l)) A.onWrong B.onWrong
  exitSession : Both (fun f g => ∀ s s', P s s' → Same P (f s) (g s')) A.exitSession B.exitSession
  exitGlobal : Both (fun f g => ∀ s s', P s s' → Same P (f s) (g s')) A.exitGlobal B.exitGlobal
  enterGlobal : Both (fun f g => ∀ s s', P s s' → Same P (f s) (g s')) A.enterGlobal B.enterGlobal
  calm : strict = true → (∀ f s, A.exitSession = some f → (f s).exn = none) ∧ (∀ f s, A.exitGlobal = some f → (f s).exn = none)
  storeA : ∀ t c, A.storeFails t c = none
  storeB : ∀ t c, B.storeFails t c = none

/-- A history that is not being browsed. -/
def Fine (h : History.History) : Prop := History.WF h ∧ h.mode = .inserting

/-- Styles that look the same as long as there are prompts. -/
def Dressed (ex : Bool) (a b : Style) : Prop := b.color = a.color ∧ b.tty = a.tty ∧ (ex = false → b.forced = a.forced)

/-- The states differ at most in what is related: the application's states, the storages, the histories, what has been written and the commands saved. -/
structure Like (P : σ → σ' → Prop) (R : Str → Str → Prop) (strict : Bool) (w : World σ τ) (v : World σ' τ) : Prop where
  app : P w.app v.app
  tree : v.tree = w.tree
  dis : v.dis = w.dis
  used : v.used = w.used
  gen : v.gen = w.gen
  style : Dressed w.exit w.io.style v.io.style
  out : R w.io.out v.io.out
  casts : v.casts = w.casts
  fineW : Fine w.hist
  fineV : Fine v.hist
  current : v.current = w.current
  exit : v.exit = w.exit
  log : unsaved v.log = unsaved w.log
  over : strict = true → ends v.log ≠ [] → v.exit = true

variable {P : σ → σ' → Prop} {R : Str → Str → Prop} {strict : Bool} (hR : ∀ a b s, R a b → R (a ++ s) (b ++ s))

section
include hR

theorem like_put {w : World σ τ} {v : World σ' τ} (h : Like P R strict w v) (s : Str) : Like P R strict (w.put s) (v.put s) :=
  ⟨h.app, h.tree, h.dis, h.used, h.gen, h.style, hR _ _ _ h.out, h.casts, h.fineW, h.fineV, h.current, h.exit, h.log, h.over⟩

theorem like_act {w : World σ τ} {v : World σ' τ} (h : Like P R strict w v) (a : Act) : Like P R strict (w.act a) (v.act a) := by
  obtain ⟨app, tree, dis, used, gen, style, out, casts, fineW, fineV, current, exit, log, over⟩ := h
  cases a with
  | out t => exact ⟨app, tree, dis, used, gen, style, hR _ _ _ out, casts, fineW, fineV, current, exit, log, over⟩
  | cout t => exact ⟨app, tree, dis, used, gen, style, hR _ _ _ out, by simp only [World.act, World.put]; rw [casts], fineW, fineV, current, exit, log, over⟩
  | color on => exact ⟨app, tree, dis, used, gen, ⟨rfl, style.2.1, style.2.2⟩, out, casts, fineW, fineV, current, exit, log, over⟩
  | enable id =>
    simp only [World.act, tree]
    by_cases hc : id ∈ w.tree.ids
    · rw [if_pos hc, if_pos hc]; exact ⟨app, rfl, by simp only [dis], used, gen, style, out, casts, fineW, fineV, current, exit, log, over⟩
    · rw [if_neg hc, if_neg hc]; exact ⟨app, tree, dis, used, gen, style, out, casts, fineW, fineV, current, exit, log, over⟩
  | disable id =>
    simp only [World.act, tree]
    by_cases hc : id ∈ w.tree.ids
    · rw [if_pos hc, if_pos hc]; exact ⟨app, rfl, by simp only [dis], used, gen, style, out, casts, fineW, fineV, current, exit, log, over⟩
    · rw [if_neg hc, if_neg hc]; exact ⟨app, tree, dis, used, gen, style, out, casts, fineW, fineV, current, exit, log, over⟩
  | remove id =>
    simp only [World.act, tree]
    by_cases hc : id ∈ w.tree.kids.ids
    · rw [if_pos hc, if_pos hc]; exact ⟨app, rfl, dis, used, by simp only [gen], style, out, casts, fineW, fineV, current, exit, log, over⟩
    · rw [if_neg hc, if_neg hc]; exact ⟨app, tree, dis, used, gen, style, out, casts, fineW, fineV, current, exit, log, over⟩
  | insert p e =>
    simp only [World.act, tree, used]
    by_cases hc : p ∈ w.tree.menuIds ∧ e.ids.Nodup ∧ ∀ i ∈ e.ids, i ∉ w.used
    · rw [if_pos hc, if_pos hc]; exact ⟨app, rfl, dis, rfl, by simp only [gen], style, out, casts, fineW, fineV, current, exit, log, over⟩
    · rw [if_neg hc, if_neg hc]; exact ⟨app, tree, dis, used, gen, style, out, casts, fineW, fineV, current, exit, log, over⟩

theorem like_acts (as : List Act) : ∀ {w : World σ τ} {v : World σ' τ}, Like P R strict w v → Like P R strict (as.foldl World.act w) (as.foldl World.act v) := by
  induction as with
  | nil => intro w v h; exact h
  | cons a as ih => intro w v h; exact ih (like_act hR h a)

theorem like_effect {w : World σ τ} {v : World σ' τ} (h : Like P R strict w v) {e : Effect σ} {e' : Effect σ'} (he : Same P e e') : Like P R strict (w.effect e) (v.effect e') := by
  unfold World.effect
  rw [he.1]
  exact like_acts hR _ ⟨he.2.2, h.tree, h.dis, h.used, h.gen, h.style, h.out, h.casts, h.fineW, h.fineV, h.current, h.exit, h.log, h.over⟩

end

theorem like_note {w : World σ τ} {v : World σ' τ} (h : Like P R strict w v) (e : Event) (he : isEnd e = false) : Like P R strict (w.note e) (v.note e) := by
  refine ⟨h.app, h.tree, h.dis, h.used, h.gen, h.style, h.out, h.casts, h.fineW, h.fineV, h.current, h.exit, ?_, ?_⟩
  · simp only [World.note, unsaved, List.filter_append]
    exact congrArg (· ++ _) h.log
  · intro hs hn
    refine h.over hs (fun k => hn ?_)
    simp only [World.note, Props.ends_append, k, List.nil_append]
    simp [ends, he]

/-- Results that differ at most in the same way. -/
inductive Alike (P : σ → σ' → Prop) (R : Str → Str → Prop) (strict : Bool) {α : Type} : Except Fault (World σ τ × α) → Except Fault (World σ' τ × α) → Prop
  | error (f) : Alike P R strict (.error f) (.error f)
  | ok {w v} (o : α) : Like P R strict w v → Alike P R strict (.ok (w, o)) (.ok (v, o))

/-- The same for results that are no faults. -/
def Twin (P : σ → σ' → Prop) (R : Str → Str → Prop) (strict : Bool) {α : Type} (p : World σ τ × α) (q : World σ' τ × α) : Prop := Like P R strict p.1 q.1 ∧ p.2 = q.2

theorem Twin.alike {α : Type} {p : World σ τ × α} {q : World σ' τ × α} (h : Twin P R strict p q) : Alike P R strict (.ok p) (.ok q) := by
  obtain ⟨w, o⟩ := p; obtain ⟨v, o'⟩ := q
  obtain ⟨h1, h2⟩ := h
  cases h2
  exact .ok _ h1

variable {A : App σ τ} {B : App σ' τ} (hA : Sim A B P strict)
include hA hR

theorem twin_call (c : Cmd) (vals : List Value) {w : World σ τ} {v : World σ' τ} (h : Like P R strict w v) : Twin P R strict (callHandler A c vals w) (callHandler B c vals v) := by
  have hb := hA.handler c.fn w.app v.app vals h.app
  refine ⟨?_, hb.2.1⟩
  have hs : v.snap = w.snap := by simp only [World.snap, h.tree, h.dis, h.current]
  simp only [callHandler, hb.2.1, hs]
  exact like_note (like_effect hR h hb) _ rfl

theorem alike_execCmd (c : Cmd) (toks : List Str) {w : World σ τ} {v : World σ' τ} (h : Like P R strict w v) : Alike P R strict (execCmd A c toks w) (execCmd B c toks v) := by
  have key := fun vals => twin_call hR hA c vals h
  unfold execCmd
  rw [h.dis, hA.plat]
  split
  · exact .ok _ h
  · split
    · split
      · exact .ok _ h
      · split
        · exact .error _
        · split
          · split
            · exact .ok _ h
            · exact .ok _ h
            · exact .ok _ h
            · exact .error _
            · rename_i vals _
              have k := key vals
              generalize callHandler A c vals w = p at k
              generalize callHandler B c vals v = q at k
              obtain ⟨w', x⟩ := p; obtain ⟨v', y⟩ := q
              obtain ⟨k1, k2⟩ := k
              cases k2
              match x with
              | none => exact .ok _ k1
              | some (.badCast _) => exact .ok _ k1
              | some (.std _) => exact .ok _ k1
              | some .other => exact .ok _ k1
          · exact .ok _ h
    · split
      · exact .error _
      · split
        · rename_i args _ 
          have k := key (args.map Value.str)
          generalize callHandler A c (args.map Value.str) w = p at k
          generalize callHandler B c (args.map Value.str) v = q at k
          obtain ⟨w', x⟩ := p; obtain ⟨v', y⟩ := q
          obtain ⟨k1, k2⟩ := k
          cases k2
          cases x with
          | none => exact .ok _ k1
          | some e => exact .ok _ k1
        · exact .ok _ h

omit hA hR in
theorem alike_goOn {w : World σ τ} {v : World σ' τ} (h : Like P R strict w v) {r : Res σ τ} {r' : Res σ' τ} (hr : Alike P R strict r r') {next : World σ τ → Res σ τ} {next' : World σ' τ → Res σ' τ}
    (hn : ∀ {w : World σ τ} {v : World σ' τ}, Like P R strict w v → Alike P R strict (next w) (next' v)) : Alike P R strict (goOn w r next) (goOn v r' next') := by
  cases hr with
  | error f => exact .error f
  | @ok w' v' o hl =>
    cases o with
    | found => exact .ok _ hl
    | thrown e => exact .ok _ hl
    | notFound =>
      simp only [goOn, h.gen, hl.gen]
      split
      · exact hn hl
      · exact .error _

theorem alike_scanEntries (toks : List Str) (sub : MenuInfo → Forest → World σ τ → Res σ τ) (sub' : MenuInfo → Forest → World σ' τ → Res σ' τ)
    (hs : ∀ m k {w : World σ τ} {v : World σ' τ}, Like P R strict w v → Alike P R strict (sub m k w) (sub' m k v)) :
    ∀ (f : Forest) {w : World σ τ} {v : World σ' τ}, Like P R strict w v → Alike P R strict (scanEntries A toks sub f w) (scanEntries B toks sub' f v) := by
  intro f
  induction f with
  | nil => intro w v h; exact .ok _ h
  | cmd c rest ih => intro w v h; exact alike_goOn h (alike_execCmd hR hA c toks h) ih
  | menu m k rest _ ih => intro w v h; exact alike_goOn h (hs m k h) ih

theorem alike_handle (toks : List Str) : ∀ (via : Bool) (path : Path) {w : World σ τ} {v : World σ' τ}, Like P R strict w v → Alike P R strict (handleCommand A toks via path w) (handleCommand B toks via path v) := by
  induction toks with
  | nil =>
    intro via path w v h
    cases path with
    | nil => unfold handleCommand; exact .ok _ h
    | cons p anc =>
      obtain ⟨m, k⟩ := p
      unfold handleCommand
      rw [h.dis]
      split
      · exact .ok _ h
      · exact .error _
  | cons t rest ih =>
    intro via path w v h
    cases path with
    | nil => unfold handleCommand; exact .ok _ h
    | cons p anc =>
      obtain ⟨m, k⟩ := p
      unfold handleCommand
      rw [h.dis]
      split
      · exact .ok _ h
      · split
        · split
          · exact .ok _ ⟨h.app, h.tree, rfl, h.used, h.gen, h.style, h.out, h.casts, h.fineW, h.fineV, rfl, h.exit, h.log, h.over⟩
          · refine alike_goOn h (alike_scanEntries hR hA rest _ _ ?_ k h) ?_
            · intro m k w v h; exact ih false _ h
            · intro w v h; exact ih true anc h
        · exact .ok _ h

theorem alike_scanCurrent (toks : List Str) {w : World σ τ} {v : World σ' τ} (h : Like P R strict w v) : Alike P R strict (scanCurrent A toks w) (scanCurrent B toks v) := by
  unfold scanCurrent
  rw [h.tree, h.current]
  split
  · exact .error _
  · rename_i path _
    unfold scanCmds
    cases path with
    | nil => exact .ok _ h
    | cons p anc =>
      obtain ⟨m, k⟩ := p
      simp only [h.dis]
      split
      · exact .ok _ h
      · refine alike_goOn h (alike_scanEntries hR hA toks _ _ ?_ k h) ?_
        · intro m k w v h; exact alike_handle hR hA toks false _ h
        · intro w v h
          split
          · exact .error _
          · exact alike_handle hR hA toks true anc h

theorem twin_wrong (line : Str) {w : World σ τ} {v : World σ' τ} (h : Like P R strict w v) : Twin P R strict (wrongCommand A line w) (wrongCommand B line v) := by
  have he := hA.wrong
  have hn := like_note h (.wrong line) rfl
  unfold wrongCommand
  revert he
  rcases A.onWrong with _ | f <;> rcases B.onWrong with _ | g <;> intro he
  · exact ⟨like_put hR hn _, rfl⟩
  · exact he.elim
  · exact he.elim
  · exact ⟨like_effect hR hn (he _ _ line hn.app), (he _ _ line hn.app).2.1⟩

theorem twin_report (line : Str) (e : Exn) {w : World σ τ} {v : World σ' τ} (h : Like P R strict w v) : Twin P R strict (reportException A line e w) (reportException B line e v) := by
  have he := hA.exception
  have hn := like_note h (.reported line e) rfl
  unfold reportException
  revert he
  rcases A.onException with _ | f <;> rcases B.onException with _ | g <;> intro he
  · exact ⟨like_put hR hn _, rfl⟩
  · exact he.elim
  · exact he.elim
  · exact ⟨like_effect hR hn (he _ _ line e hn.app), (he _ _ line e hn.app).2.1⟩

theorem alike_catchAll (line : Str) {r : Res σ τ} {r' : Res σ' τ} (h : Alike P R strict r r') : Alike P R strict (catchAll A line r) (catchAll B line r') := by
  cases h with
  | error f => exact .error f
  | ok o h =>
    match o with
    | .found => exact .ok _ h
    | .notFound => exact .ok _ h
    | .thrown .other => exact .ok _ (like_put hR (like_note h _ rfl) _)
    | .thrown (.std _) => exact (twin_report hR hA line _ h).alike
    | .thrown (.badCast _) => exact (twin_report hR hA line _ h).alike

omit hA hR in
/-- The same, without what is demanded of the noted events. -/
def Loose (P : σ → σ' → Prop) (R : Str → Str → Prop) (w : World σ τ) (v : World σ' τ) : Prop := Like P R false w v

omit hA hR in
theorem Like.loose {w : World σ τ} {v : World σ' τ} (h : Like P R strict w v) : Loose P R w v :=
  ⟨h.app, h.tree, h.dis, h.used, h.gen, h.style, h.out, h.casts, h.fineW, h.fineV, h.current, h.exit, h.log, nofun⟩

omit hA hR in
theorem loose_note {w : World σ τ} {v : World σ' τ} (h : Loose P R w v) (e : Event) : Loose P R (w.note e) (v.note e) := by
  refine ⟨h.app, h.tree, h.dis, h.used, h.gen, h.style, h.out, h.casts, h.fineW, h.fineV, h.current, h.exit, ?_, nofun⟩
  simp only [World.note, unsaved, List.filter_append]
  exact congrArg (· ++ _) h.log

omit hA in
theorem loose_action {f : σ → Effect σ} {g : σ' → Effect σ'} (ev : Event) (hf : ∀ s s', P s s' → Same P (f s) (g s')) {w : World σ τ} {v : World σ' τ} (h : Loose P R w v) :
    Loose P R (callAction f ev w).1 (callAction g ev v).1 ∧ (callAction f ev w).2 = (callAction g ev v).2 :=
  ⟨like_effect hR (loose_note h ev) (hf _ _ h.app), (hf _ _ h.app).2.1⟩

omit hA in
theorem loose_optAction {a : Option (σ → Effect σ)} {b : Option (σ' → Effect σ')} (ev : Event) (hf : Both (fun f g => ∀ s s', P s s' → Same P (f s) (g s')) a b) {w : World σ τ} {v : World σ' τ} (h : Loose P R w v) :
    Loose P R (optAction a ev w).1 (optAction b ev v).1 ∧ (optAction a ev w).2 = (optAction b ev v).2 := by
  cases a with
  | none =>
    cases b with
    | none => exact ⟨h, rfl⟩
    | some g => exact hf.elim
  | some f =>
    cases b with
    | none => exact hf.elim
    | some g => exact loose_action hR ev hf h

omit hA hR in
theorem fine_commands {h : History.History} (hf : Fine h) : ∃ cmds, History.getCommands h = .ok cmds := by
  unfold History.getCommands
  rw [hf.2]
  exact ⟨_, rfl⟩

theorem alike_exit {w : World σ τ} {v : World σ' τ} (h : Like P R strict w v) : Alike P R strict (exitSession A w) (exitSession B v) := by
  have he := hA.exitSession
  have hc := hA.calm
  have hg := hA.exitGlobal
  unfold exitSession
  revert he hc
  rcases hf : A.exitSession with _ | f <;> rcases B.exitSession with _ | g <;> intro he hc
  · exact .ok _ h
  · exact he.elim
  · exact he.elim
  · simp only
    have k := loose_action hR .exitSession he h.loose
    have k0 : strict = true → (callAction f .exitSession w).2 = none := fun hs => (hc hs).1 f _ rfl
    generalize callAction f .exitSession w = p at k k0
    generalize callAction g .exitSession v = q at k
    obtain ⟨w1, x⟩ := p; obtain ⟨v1, y⟩ := q
    obtain ⟨k1, k2⟩ := k
    cases k2
    simp only at k0 k1
    cases x with
    | some e =>
      have : strict = false := by cases hs : strict with
        | false => rfl
        | true => cases k0 hs
      subst this
      exact .ok _ k1
    | none =>
      simp only
      have k := loose_optAction hR .exitGlobal hg k1
      have k0 : strict = true → (optAction A.exitGlobal .exitGlobal w1).2 = none := by
        intro hs
        cases hx : A.exitGlobal with
        | none => rfl
        | some f' => exact (hc hs).2 f' _ hx
      generalize optAction A.exitGlobal .exitGlobal w1 = p at k k0
      generalize optAction B.exitGlobal .exitGlobal v1 = q at k
      obtain ⟨w2, x⟩ := p; obtain ⟨v2, y⟩ := q
      obtain ⟨k1, k2⟩ := k
      cases k2
      simp only at k0 k1
      cases x with
      | some e =>
        have : strict = false := by cases hs : strict with
          | false => rfl
          | true => cases k0 hs
        subst this
        exact .ok _ k1
      | none =>
        obtain ⟨c1, hc1⟩ := fine_commands k1.fineW
        obtain ⟨c2, hc2⟩ := fine_commands k1.fineV
        simp only [hc1, hc2, hA.storeA, hA.storeB]
        refine .ok _ ⟨k1.app, k1.tree, k1.dis, k1.used, k1.gen, ⟨k1.style.1, k1.style.2.1, nofun⟩, k1.out, k1.casts, k1.fineW, k1.fineV, k1.current, rfl, ?_, fun _ _ => rfl⟩
        have := k1.log
        simpa [World.note, unsaved, List.filter_append] using this

theorem alike_scanGlobal (fd : Str → World σ τ → Except Fault (World σ τ × Option Exn)) (fd' : Str → World σ' τ → Except Fault (World σ' τ × Option Exn)) (toks : List Str) (ht : NotAboutHistory toks)
    {w : World σ τ} {v : World σ' τ} (h : Like P R strict w v) : Alike P R strict (scanGlobal A fd toks w) (scanGlobal B fd' toks v) := by
  unfold scanGlobal
  split
  · exact .error _
  · rename_i t
    split
    · have k := like_note h (.builtin .help) rfl
      revert k
      generalize w.note (.builtin .help) = w1
      generalize v.note (.builtin .help) = v1
      intro k
      have e : ∀ s : Str, Like P R strict (w1.put s) (v1.put s) := fun s => like_put hR k s
      simp only [helpCmd, bind, Except.bind, k.tree, k.current]
      cases hloc : w1.tree.locate w1.current with
      | none => exact .error _
      | some p =>
        simp only
        rw [show mainHelp v1.dis p = mainHelp w1.dis p by rw [k.dis]]
        exact .ok _ (e _)
    · split
      · have k := alike_exit hR hA (like_note h (.builtin .exit) rfl)
        simp only [bind, Except.bind]
        generalize exitSession A (w.note (.builtin .exit)) = p at k
        generalize exitSession B (v.note (.builtin .exit)) = q at k
        cases k with
        | error f => exact .error f
        | ok o h => exact .ok _ h
      · split
        · rename_i hh
          exact absurd (by rw [hh]) ht.1
        · exact .ok _ h
  · rename_i t arg
    split
    · rename_i hh
      exact absurd (by rw [hh]) (ht.2 arg)
    · exact .ok _ h
  · exact .ok _ h

omit hA hR in
theorem fine_new {h : History.History} (hf : Fine h) (line : Str) : ∃ h', History.newCommand h line = .ok h' ∧ Fine h' := by
  obtain ⟨h', h1, h2, _, h4, _⟩ := History.newCommand_ok hf.1 line
  exact ⟨h', h1, h2, h4⟩

/-- Feeding the same line, which is not about the history, has the same visible effect. -/
theorem alike_feed (fuel : Nat) (line : Str) (hl : ∀ toks, Split.split line = .ok toks → NotAboutHistory toks) {w : World σ τ} {v : World σ' τ} (h : Like P R strict w v) :
    Alike P R strict (feed A fuel line w) (feed B fuel line v) := by
  cases fuel with
  | zero => exact .error _
  | succ fuel =>
    unfold feed
    simp only [bind, Except.bind]
    cases hs : Split.split line with
    | error f => exact .error _
    | ok strs =>
      simp only
      split
      · exact .ok _ h
      · obtain ⟨h1, a1, a2⟩ := fine_new h.fineW line
        obtain ⟨h2, b1, b2⟩ := fine_new h.fineV line
        rw [a1, b1]
        simp only
        refine alike_catchAll hR hA line ?_
        have hl' : Like P R strict { w with hist := h1 } { v with hist := h2 } :=
          ⟨h.app, h.tree, h.dis, h.used, h.gen, h.style, h.out, h.casts, a2, b2, h.current, h.exit, h.log, h.over⟩
        have k := alike_scanGlobal hR hA (feed A fuel) (feed B fuel) strs (hl strs hs) hl'
        revert k
        generalize scanGlobal A (feed A fuel) strs _ = p
        generalize scanGlobal B (feed B fuel) strs _ = q
        intro k
        cases k with
        | error f => exact .error f
        | @ok w v o h =>
          cases o with
          | found => exact .ok _ h
          | thrown e => exact .ok _ h
          | notFound =>
            simp only
            have k := alike_scanCurrent hR hA strs h
            revert k
            generalize scanCurrent A strs w = p
            generalize scanCurrent B strs v = q
            intro k
            cases k with
            | error f => exact .error f
            | @ok w v o h =>
              cases o with
              | found => exact .ok _ h
              | thrown e => exact .ok _ h
              | notFound =>
                simp only
                have k := twin_wrong hR hA line h
                generalize wrongCommand A line w = p at k
                generalize wrongCommand B line v = q at k
                obtain ⟨w', x⟩ := p; obtain ⟨v', y⟩ := q
                obtain ⟨k1, k2⟩ := k
                cases k2
                cases x with
                | none => exact .ok _ k1
                | some e => exact .ok _ k1

omit hA in
theorem prompt_io {ex : Bool} {a b : Io} (hs : Dressed ex a.style b.style) (hx : ex = false) (ho : R a.out b.out) (s : Str) :
    Dressed false ((((a.beforePrompt).put s).afterPrompt).put bs!"> ").style ((((b.beforePrompt).put s).afterPrompt).put bs!"> ").style ∧
    R ((((a.beforePrompt).put s).afterPrompt).put bs!"> ").out ((((b.beforePrompt).put s).afterPrompt).put bs!"> ").out ∧
    (((((a.beforePrompt).put s).afterPrompt).put bs!"> ").style.color = true → ((((a.beforePrompt).put s).afterPrompt).put bs!"> ").style.forced = true) := by
  obtain ⟨⟨c, t, f⟩, ao⟩ := a
  obtain ⟨⟨c', t', f'⟩, bo⟩ := b
  obtain ⟨d1, d2, d3⟩ := hs
  have d3' := d3 hx
  clear d3
  simp only at d1 d2 d3' ho
  subst d1 d2 d3'
  have app2 : ∀ s1 s2, R (ao ++ s1 ++ s2) (bo ++ s1 ++ s2) := fun s1 s2 => hR _ _ _ (hR _ _ _ ho)
  have app3 : ∀ s1 s2 s3, R (ao ++ s1 ++ s2 ++ s3) (bo ++ s1 ++ s2 ++ s3) := fun s1 s2 s3 => hR _ _ _ (app2 _ _)
  have app5 : ∀ s1 s2 s3 s4 s5, R (ao ++ s1 ++ s2 ++ s3 ++ s4 ++ s5) (bo ++ s1 ++ s2 ++ s3 ++ s4 ++ s5) := fun s1 s2 s3 s4 s5 => hR _ _ _ (hR _ _ _ (app3 _ _ _))
  cases c' <;> cases t' <;> cases f' <;> refine ⟨⟨rfl, rfl, fun _ => rfl⟩, ?_, ?_⟩ <;>
    simp only [Io.beforePrompt, Io.afterPrompt, Io.sgr, Io.put, Io.force, Bool.or_true, Bool.true_or, Bool.or_self, if_true, Bool.false_eq_true, if_false, imp_self, false_implies, implies_true] <;>
    first | exact app2 _ _ | exact app3 _ _ _ | exact app5 _ _ _ _ _

omit hA in
/-- So do prompts. -/
theorem like_prompt {w : World σ τ} {v : World σ' τ} (h : Like P R strict w v) :
    (∃ f, prompt w = .error f ∧ prompt v = .error f) ∨ ∃ w1 v1, prompt w = .ok w1 ∧ prompt v = .ok v1 ∧ Like P R strict w1 v1 ∧ w1.exit = w.exit ∧ (w.exit = true → w1 = w) ∧ (w.exit = false → w1.io.style.color = true → w1.io.style.forced = true) := by
  unfold prompt
  rw [h.exit, h.tree, h.current]
  cases hx : w.exit with
  | true => exact .inr ⟨w, v, rfl, rfl, h, hx, fun _ => rfl, nofun⟩
  | false =>
    simp only [Bool.false_eq_true, if_false]
    split
    · rename_i m k p hloc
      have key := prompt_io hR h.style hx h.out m.prompt
      refine .inr ⟨_, _, rfl, rfl, ?_, rfl, nofun, fun _ => key.2.2⟩
      exact ⟨h.app, rfl, h.dis, h.used, h.gen, key.1, key.2.1, h.casts, h.fineW, h.fineV, rfl, rfl, h.log, fun a b => (h.exit.trans hx) ▸ h.over a b⟩
    · exact .inl ⟨_, rfl, rfl⟩

end Verif.Frontend
