import Verif.Proofs.Frontend
import Verif.Props.SameOverTelnet
import Verif.Props.AsyncSession

set_option linter.unusedSimpArgs false

/-!
# Property C123: the same lines typed, read from a file and received asynchronously
-/

namespace Verif.Frontend
open Spec Props FileSession
open Processor (Proc)
open Terminal (Key)
open Transfer (desk atDesk)

variable {σ σ' τ : Type}

/-- The two sessions have done the same: they have called the same functions with the same arguments in the same menus (`log`), and left the same menus, application and `Cli`; what one has written is what the other has written and the lines as
    they were shown when they were typed. -/
structure SameLines (shown : List Str) (K : σ → σ' → Prop) (w : World σ τ) (v : World σ' τ) : Prop where
  log : unsaved v.log = unsaved w.log
  app : K w.app v.app
  tree : v.tree = w.tree
  dis : v.dis = w.dis
  casts : v.casts = w.casts
  current : v.current = w.current
  exit : v.exit = w.exit
  out : Without shown w.io.out v.io.out

/-- A line that can be typed (there is no tab in it), and is not about the history. -/
def Suits (l : Str) : Prop := b%'\t' ∉ l ∧ ∀ words, Split.split l = .ok words → NotAboutHistory words

/-! ### Proof -/

theorem run_more (A : App σ τ) (fuel : Nat) (b : List Key) : ∀ (a : List Key) (p q : Proc σ τ), Processor.run A fuel a p = .ok (q, none) → Processor.run A fuel (a ++ b) p = Processor.run A fuel b q := by
  intro a
  induction a with
  | nil => intro p q h; cases h; rfl
  | cons k a ih =>
    intro p q h
    simp only [Processor.run, List.cons_append, bind, Except.bind] at h ⊢
    cases hk : Processor.keypressed A fuel p k with
    | error f => rw [hk] at h; cases h
    | ok r =>
      obtain ⟨p1, x⟩ := r
      rw [hk] at h
      cases x with
      | some e => cases h
      | none => exact ih p1 q h

/-- What is shown of a character. -/
def shown (colour escapes : Bool) (c : Byte) : Str := (if colour then 27 :: bs!"[97m" else []) ++ [c] ++ (if escapes then 27 :: bs!"[0m" else [])

/-- The stream after some characters have been typed. -/
def typedIo (io : Io) (l : Str) : Io :=
  ⟨{ io.style with forced := io.style.forced || (io.style.color && !l.isEmpty) }, io.out ++ l.flatMap (shown io.style.color (io.style.forced || io.style.color || io.style.tty))⟩

theorem typed_char (io : Io) (c : Byte) : ((((io.beforeInput).put [c]).put []).afterInput).put [] = typedIo io [c] := by
  obtain ⟨⟨a, b, d⟩, o⟩ := io
  have e97 : decimal 97 = bs!"97" := by decide +kernel
  have e0 : decimal 0 = bs!"0" := by decide +kernel
  cases a <;> cases b <;> cases d <;> simp [Io.beforeInput, Io.afterInput, Io.sgr, Io.put, Io.force, typedIo, shown, e97, e0]

theorem typedIo_append (io : Io) (a b : Str) : typedIo (typedIo io a) b = typedIo io (a ++ b) := by
  obtain ⟨⟨c, t, f⟩, o⟩ := io
  unfold typedIo
  cases a with
  | nil => cases c <;> cases f <;> simp
  | cons x a => cases c <;> cases t <;> cases f <;> simp

/-- Typing a line and Enter. -/
theorem typing (A : App σ τ) (fuel : Nat) (l : Str) (hl : b%'\t' ∉ l) : ∀ (l0 : Str) (w : World σ τ),
    Processor.run A fuel (l.map Key.ascii ++ [.ret]) ⟨w, ⟨l0, l0.length⟩, true⟩ = enterLine A fuel (l0 ++ l) { w with io := (typedIo w.io l).put bs!"\r\n" } := by
  induction l with
  | nil =>
    intro l0 w
    have : typedIo w.io [] = w.io := by
      simp [typedIo]
    rw [this, List.append_nil]
    simp only [List.map_nil, List.nil_append, Processor.run, Processor.keypressed, Terminal.keypressed, Processor.newCommand, bind, Except.bind, enterLine]
    cases feed A fuel l0 { w with io := w.io.put bs!"\r\n" } with
    | error f => rfl
    | ok r =>
      obtain ⟨w', x⟩ := r
      cases x with
      | some e => rfl
      | none =>
        simp only
        cases prompt w' with
        | error f => rfl
        | ok w'' => rfl
  | cons c l ih =>
    intro l0 w
    have hc : c ≠ b%'\t' := fun h => hl (by simp [h])
    have hl' : b%'\t' ∉ l := fun h => hl (by simp [h])
    simp only [List.map_cons, List.cons_append, Processor.run, Processor.keypressed, Terminal.keypressed, if_neg hc, Terminal.suffix, Terminal.repSub, Terminal.insertAt, Nat.le_refl, if_true, bind, Except.bind, Processor.newCommand,
      List.drop_length, Nat.sub_self, Terminal.rep, List.replicate_zero, typed_char, List.take_length]
    rw [show l0.length + 1 = (l0 ++ [c]).length by simp, ih hl' (l0 ++ [c])]
    simp only [typedIo_append, List.append_assoc, List.singleton_append]

theorem echo_typed (io : Io) (l : Str) : ∃ e, ((typedIo io l).put bs!"\r\n").out = io.out ++ e ∧ Echo e l :=
  ⟨l.flatMap (shown io.style.color (io.style.forced || io.style.color || io.style.tty)) ++ bs!"\r\n", by simp [typedIo, Io.put], _, _, by cases io.style.color <;> simp, rfl⟩

theorem without_more (es : List Str) : ∀ a b s, Without es a b → Without es (a ++ s) (b ++ s) := fun _ _ s h => .more s h

/-- What has been typed is put in. -/
theorem like_typed {P : σ → σ' → Prop} {strict : Bool} {es : List Str} {w : World σ τ} {v : World σ' τ} (h : Like P (Without es) strict w v) (hc : w.exit = false → w.io.style.color = true → w.io.style.forced = true) (l : Str) :
    ∃ e, Echo e l ∧ Like P (Without (es ++ [e])) strict { w with io := (typedIo w.io l).put bs!"\r\n" } v := by
  obtain ⟨e, h1, h2⟩ := echo_typed w.io l
  refine ⟨e, h2, h.app, h.tree, h.dis, h.used, h.gen, ⟨h.style.1, h.style.2.1, ?_⟩, ?_, h.casts, h.fineW, h.fineV, h.current, h.exit, h.log, h.over⟩
  · intro hx
    rw [h.style.2.2 hx]
    have := hc hx
    simp only [typedIo, Io.put]
    cases hcol : w.io.style.color with
    | false => simp
    | true => simp [this hcol]
  · rw [h1]; exact .piece e h.out

theorem fine_load (n : Nat) (cmds : List Str) : Fine (History.loadCommands (History.init n) cmds) := by
  refine ⟨History.wf_load n cmds, ?_⟩
  have : ∀ (cmds : List Str) (h : History.History), h.mode = .inserting → (History.loadCommands h cmds).mode = .inserting := by
    intro cmds
    induction cmds with
    | nil => intro h hm; exact hm
    | cons c cmds ih =>
      intro h hm
      refine ih _ ?_
      unfold History.insert
      dsimp only
      split <;> exact hm
  exact this cmds _ rfl

theorem like_new {P : σ → σ' → Prop} (strict : Bool) {A : App σ τ} {n : Nat} {w : World σ τ} {io : Io} {v : World σ' τ} (hP : P w.app v.app) (h1 : v.tree = w.tree) (h2 : v.dis = w.dis) (h3 : v.used = w.used) (h4 : v.gen = w.gen) (h5 : v.io = io)
    (h6 : v.casts = []) (h7 : Fine v.hist) (h8 : v.current = w.tree.root.id) (h9 : v.exit = false) (h10 : v.log = []) : Like P (Without []) strict (newSession A n w io) v :=
  ⟨hP, h1, h2, h3, h4, by rw [h5]; exact ⟨rfl, rfl, fun _ => rfl⟩, by rw [h5]; exact .same _, h6, fine_load _ _, h7, h8, h9, by rw [h10]; rfl, by rw [h10]; intro _ h; exact absurd rfl h⟩

/-- The exit action of a local session that does nothing. -/
def nothing (s : σ) : Effect σ := ⟨s, [], none⟩

theorem both_lift {α β : Type} {R : α → β → Prop} (a : Option α) (g : α → β) (h : ∀ f, R f (g f)) : Both R a (a.map g) := by
  cases a with
  | none => trivial
  | some f => exact h f

theorem both_self {α : Type} {R : α → α → Prop} (a : Option α) (h : ∀ f, R f f) : Both R a a := by
  cases a with
  | none => trivial
  | some f => exact h f

theorem file_sim (A : App σ τ) (hg : ∀ f s, A.exitGlobal = some f → (f s).exn = none) (hs : ∀ t c, A.storeFails t c = none) : Sim (atDesk A nothing) (fileApp A none) (fun s s' => s'.1 = s) true where
  plat := rfl
  handler := by rintro f s s' v rfl; exact ⟨rfl, rfl, rfl⟩
  exception := both_lift _ _ (by rintro f s s' l e rfl; exact ⟨rfl, rfl, rfl⟩)
  wrong := both_lift _ _ (by rintro f s s' l rfl; exact ⟨rfl, rfl, rfl⟩)
  exitSession := by rintro s s' rfl; exact ⟨rfl, rfl, rfl⟩
  exitGlobal := both_lift _ _ (by rintro f s s' rfl; exact ⟨rfl, rfl, rfl⟩)
  enterGlobal := both_lift _ _ (by rintro f s s' rfl; exact ⟨rfl, rfl, rfl⟩)
  calm := fun _ => ⟨fun f s h => by cases h; rfl, hg⟩
  storeA := hs
  storeB := hs

theorem self_sim (A : App σ τ) (hs : ∀ t c, A.storeFails t c = none) : Sim A A Eq false where
  plat := rfl
  handler := by rintro f s s' v rfl; exact ⟨rfl, rfl, rfl⟩
  exception := both_self _ (by rintro f s s' l e rfl; exact ⟨rfl, rfl, rfl⟩)
  wrong := both_self _ (by rintro f s s' l rfl; exact ⟨rfl, rfl, rfl⟩)
  exitSession := both_self _ (by rintro f s s' rfl; exact ⟨rfl, rfl, rfl⟩)
  exitGlobal := both_self _ (by rintro f s s' rfl; exact ⟨rfl, rfl, rfl⟩)
  enterGlobal := both_self _ (by rintro f s s' rfl; exact ⟨rfl, rfl, rfl⟩)
  calm := nofun
  storeA := hs
  storeB := hs

/-- The lines that a file session plays, typed. -/
theorem plays_typed {A : App σ τ} {B : App (σ × Bool) τ} {P : σ → σ × Bool → Prop} (hA : Sim A B P true) {fuel : Nat} {v v' : World (σ × Bool) τ} {ls fed : List Str} {x : Option Exn} (hp : Plays B fuel v ls fed v' x) :
    ∀ (es : List Str) (w : World σ τ), (∀ l ∈ ls, Suits l) → Like P (Without es) true w v → ∃ w1 ks p es', prompt w = .ok w1 ∧ (ks = keyedIn fed ∨ (ks = keyedIn fed ++ [.eof] ∧ fed = ls)) ∧
      Processor.run A fuel ks ⟨w1, ⟨[], 0⟩, true⟩ = .ok (p, x) ∧ Like P (Without (es ++ es')) true p.w v' ∧ Echoes es' fed := by
  induction hp with
  | @over v ls he =>
    intro es w _ h
    have hx : w.exit = true := h.exit ▸ h.over rfl he
    refine ⟨w, [], ⟨w, ⟨[], 0⟩, true⟩, [], ?_, .inl rfl, rfl, by simpa using h, .nil⟩
    unfold prompt
    rw [hx]; rfl
  | @eof v v1 v2 x he h1 h2 =>
    intro es w _ h
    rcases like_prompt (without_more es) h with ⟨f, _, k⟩ | ⟨w1, v1', a1, a2, a3, _⟩
    · rw [h1] at k; cases k
    · rw [h1] at a2; cases a2
      have k := alike_exit (without_more es) hA a3
      rw [h2] at k
      cases hk : exitSession A w1 with
      | error f => rw [hk] at k; cases k
      | ok r =>
        rw [hk] at k
        cases k with
        | @ok w2 _ _ hl =>
          refine ⟨w1, [.eof], ⟨w2, ⟨[], 0⟩, true⟩, [], a1, .inr ⟨rfl, rfl⟩, ?_, by simpa using hl, .nil⟩
          simp only [Processor.run, Processor.keypressed, Terminal.keypressed, Processor.newCommand, bind, Except.bind]
          rw [show exitSession A { w1 with io := w1.io } = exitSession A w1 from rfl, hk]
          cases x <;> rfl
  | @line v v1 v2 v3 l ls fed x he h1 h2 _ ih =>
    intro es w hl h
    rcases like_prompt (without_more es) h with ⟨f, _, k⟩ | ⟨w1, v1', a1, a2, a3, a4, _, a6⟩
    · rw [h1] at k; cases k
    · rw [h1] at a2; cases a2
      obtain ⟨e, e1, e2⟩ := like_typed a3 (fun hx => a6 (a4 ▸ hx)) l
      have k := alike_feed (without_more _) hA fuel l (hl l List.mem_cons_self).2 e2
      rw [h2] at k
      cases hk : feed A fuel l { w1 with io := (typedIo w1.io l).put bs!"\r\n" } with
      | error f => rw [hk] at k; cases k
      | ok r =>
        rw [hk] at k
        cases k with
        | @ok w2 _ _ hlk =>
          obtain ⟨w3, ks, p, es', b1, b2, b3, b4, b5⟩ := ih (es ++ [e]) w2 (fun l hm => hl l (List.mem_cons_of_mem _ hm)) hlk
          refine ⟨w1, (l.map Key.ascii ++ [.ret]) ++ ks, p, e :: es', a1, ?_, ?_, by simpa using b4, .cons e1 b5⟩
          · rcases b2 with rfl | ⟨rfl, rfl⟩
            · exact .inl (by simp [keyedIn])
            · exact .inr ⟨by simp [keyedIn], rfl⟩
          · rw [run_more A fuel ks _ _ ⟨w3, ⟨[], 0⟩, true⟩]
            · exact b3
            · have := typing A fuel l (hl l List.mem_cons_self).1 [] w1
              rw [List.nil_append] at this
              rw [show (⟨w1, ⟨[], 0⟩, true⟩ : Proc σ τ) = ⟨w1, ⟨[], ([] : Str).length⟩, true⟩ from rfl, this]
              simp only [enterLine, hk, b1]
  | @thrown v v1 v2 l ls e he h1 h2 =>
    intro es w hl h
    rcases like_prompt (without_more es) h with ⟨f, _, k⟩ | ⟨w1, v1', a1, a2, a3, a4, _, a6⟩
    · rw [h1] at k; cases k
    · rw [h1] at a2; cases a2
      obtain ⟨e', e1, e2⟩ := like_typed a3 (fun hx => a6 (a4 ▸ hx)) l
      have k := alike_feed (without_more _) hA fuel l (hl l List.mem_cons_self).2 e2
      rw [h2] at k
      cases hk : feed A fuel l { w1 with io := (typedIo w1.io l).put bs!"\r\n" } with
      | error f => rw [hk] at k; cases k
      | ok r =>
        rw [hk] at k
        cases k with
        | @ok w2 _ _ hlk =>
          refine ⟨w1, _, ⟨w2, ⟨[], 0⟩, false⟩, [e'], a1, .inl rfl, ?_, hlk, .cons e1 .nil⟩
          have := typing A fuel l (hl l List.mem_cons_self).1 [] w1
          rw [List.nil_append] at this
          simp only [keyedIn, List.flatMap_cons, List.flatMap_nil, List.append_nil]
          rw [show (⟨w1, ⟨[], 0⟩, true⟩ : Proc σ τ) = ⟨w1, ⟨[], ([] : Str).length⟩, true⟩ from rfl, this]
          simp only [enterLine, hk]

/-- Lines that an asynchronous session executes, typed. -/
theorem executes_typed {A : App σ τ} (hA : Sim A A Eq false) {fuel : Nat} {v v' : World σ τ} {ls : List Str} (hp : Executes A fuel v ls v') :
    ∀ (es : List Str) (w : World σ τ), (∀ l ∈ ls, Suits l) → (w.exit = false → w.io.style.color = true → w.io.style.forced = true) → Like Eq (Without es) false w v → ∃ w' es', Processor.run A fuel (keyedIn ls) ⟨w, ⟨[], 0⟩, true⟩ = .ok (⟨w', ⟨[], 0⟩, true⟩, none) ∧
      Like Eq (Without (es ++ es')) false w' v' ∧ (w'.exit = false → w'.io.style.color = true → w'.io.style.forced = true) ∧ Echoes es' ls := by
  induction hp with
  | nil => intro es w _ hc h; exact ⟨w, [], rfl, by simpa using h, hc, .nil⟩
  | @line v v1 v2 v3 l ls h1 h2 _ ih =>
    intro es w hl hc h
    obtain ⟨e, e1, e2⟩ := like_typed h hc l
    have k := alike_feed (without_more _) hA fuel l (hl l List.mem_cons_self).2 e2
    rw [h1] at k
    cases hk : feed A fuel l { w with io := (typedIo w.io l).put bs!"\r\n" } with
    | error f => rw [hk] at k; cases k
    | ok r =>
      rw [hk] at k
      cases k with
      | @ok w1 _ _ hlk =>
        rcases like_prompt (without_more _) hlk with ⟨f, _, k⟩ | ⟨w2, v2', a1, a2, a3, a4, _, a6⟩
        · rw [h2] at k; cases k
        · rw [h2] at a2; cases a2
          obtain ⟨w', es', b1, b2, b3, b4⟩ := ih (es ++ [e]) w2 (fun l hm => hl l (List.mem_cons_of_mem _ hm)) (fun hx => a6 (a4 ▸ hx)) a3
          refine ⟨w', e :: es', ?_, by simpa using b2, b3, .cons e1 b4⟩
          rw [show keyedIn (l :: ls) = (l.map Key.ascii ++ [.ret]) ++ keyedIn ls by simp [keyedIn], run_more A fuel _ _ _ ⟨w2, ⟨[], 0⟩, true⟩]
          · exact b1
          · have := typing A fuel l (hl l List.mem_cons_self).1 [] w
            rw [List.nil_append] at this
            rw [show (⟨w, ⟨[], 0⟩, true⟩ : Proc σ τ) = ⟨w, ⟨[], ([] : Str).length⟩, true⟩ from rfl, this]
            simp only [enterLine, hk, a1]

theorem Like.same {P : σ → σ' → Prop} {strict : Bool} {es : List Str} {w : World σ τ} {v : World σ' τ} (h : Like P (Without es) strict w v) : SameLines es P w v :=
  ⟨h.log, h.app, h.tree, h.dis, h.casts, h.current, h.exit, h.out⟩

theorem like_enter {A : App σ τ} {B : App σ' τ} {P : σ → σ' → Prop} (hA : Sim A B P true) (h1 : A.enterSession = none) (h2 : B.enterSession = none) {w : World σ τ} {v : World σ' τ} (h : Like P (Without []) true w v) :
    Like P (Without []) true (enterSession A w).1 (enterSession B v).1 ∧ (enterSession A w).2 = (enterSession B v).2 := by
  have one := hA.enterGlobal
  unfold enterSession optAction
  rw [h1, h2]
  cases ha : A.enterGlobal with
  | none =>
    cases hb : B.enterGlobal with
    | none => exact ⟨h, rfl⟩
    | some g => rw [ha, hb] at one; exact one.elim
  | some f =>
    cases hb : B.enterGlobal with
    | none => rw [ha, hb] at one; exact one.elim
    | some g =>
      rw [ha, hb] at one
      have k : Same P (f w.app) (g v.app) := one _ _ h.app
      have l := like_effect (without_more []) (like_note h .enterGlobal rfl) k
      simp only [callAction]
      rw [← k.2.1]
      cases hx : (f w.app).exn with
      | none => exact ⟨l, rfl⟩
      | some e => exact ⟨l, rfl⟩

/-! ### C123 -/

/-- **C123** (part) A file session does the same as a local session (whose exit action does nothing) in which the lines are typed that it has read, and then, if it came to the end of the input, the key for that. Their outputs differ in the characters that a terminal shows when lines are
    typed. Missing: sessions with an enter action, lines with a tab, the commands `history` and `!`, global exit actions and storages that throw. -/
theorem C123_file_partial (A : App σ τ) (he : A.enterSession = none) (hg : ∀ f s, A.exitGlobal = some f → (f s).exn = none) (hs : ∀ t c, A.storeFails t c = none) (n fuel rounds : Nat) (w : World σ τ) (io : Io)
    (d : Str) (ls : List Str) (rest : Str) (hd : Lines d ls rest) (hl : ∀ l ∈ ls, Suits l) (v : World (σ × Bool) τ) (hv : FileSession.create A (.of d) true w io = .ok v) (E : End σ τ) (hE : start (fileApp A none) fuel rounds (.of d) v = .ok (some E)) :
    ∃ ks p shown, (ks = keyedIn E.fed ∨ (ks = keyedIn E.fed ++ [.eof] ∧ E.fed = ls)) ∧ desk (atDesk A nothing) n fuel w io ks = .ok (p, E.exn) ∧ Echoes shown E.fed ∧ SameLines shown (fun s s' => s'.1 = s) p.w E.w := by
  have sim := file_sim A hg hs
  have l0 : Like (fun s s' => s'.1 = s) (Without []) true (newSession (atDesk A nothing) n w io) v := by
    unfold FileSession.create at hv
    rw [if_neg (by simp [In.of, In.good]), if_neg (by simp)] at hv
    cases hv
    exact like_new true rfl rfl rfl rfl rfl rfl rfl (fine_load _ _) rfl rfl rfl
  have h0 : v.app.2 = false ∧ ends v.log = [] := by
    unfold FileSession.create at hv
    rw [if_neg (by simp [In.of, In.good]), if_neg (by simp)] at hv
    cases hv
    exact ⟨rfl, rfl⟩
  obtain ⟨p1, p2⟩ := C55_lines_partial A fuel rounds d ls rest hd v h0.1 h0.2 E hE
  obtain ⟨k1, k2⟩ := like_enter sim rfl (by simp [fileApp, he]) l0
  have hlocal : ∀ ks, desk (atDesk A nothing) n fuel w io ks = (match enterSession (atDesk A nothing) (newSession (atDesk A nothing) n w io) with
      | (w, some e) => .ok (⟨w, ⟨[], 0⟩, true⟩, some e)
      | (w, none) => match prompt w with
        | .error f => .error f
        | .ok w => Processor.run (atDesk A nothing) fuel ks ⟨w, ⟨[], 0⟩, true⟩) := by
    intro ks
    unfold desk Local.create
    rw [show ({ atDesk A nothing with enterSession := none } : App σ τ) = atDesk A nothing from rfl]
    cases enterSession (atDesk A nothing) (newSession (atDesk A nothing) n w io) with
    | mk w1 x1 =>
      cases x1 with
      | some e => rfl
      | none =>
        simp only
        cases prompt w1 <;> rfl
  cases hr : enterSession (atDesk A nothing) (newSession (atDesk A nothing) n w io) with
  | mk w1 x1 =>
    rw [hr] at k1 k2
    cases x1 with
    | some e =>
      obtain ⟨a1, a2, a3⟩ := p1 e k2.symm
      refine ⟨[], ⟨w1, ⟨[], 0⟩, true⟩, [], .inl (by rw [a1]; rfl), by rw [hlocal, hr, a3], by rw [a1]; exact .nil, ?_⟩
      rw [a2]; exact k1.same
    | none =>
      obtain ⟨w2, ks, p, es, b1, b2, b3, b4, b5⟩ := plays_typed sim (p2 k2.symm) [] w1 hl k1
      refine ⟨ks, p, es, b2, ?_, b5, by simpa using b4.same⟩
      rw [hlocal, hr]
      simp only [b1, b3]

/-- **C123** (part) An asynchronous session does the same as a local one in which the lines are typed that it has received, at any time. Missing: applications with an enter action (that it never calls, C75), lines with a tab, the commands `history` and `!`, storages that throw. -/
theorem C123_async_partial (A : App σ τ) (he : A.enterGlobal = none) (hs : ∀ t c, A.storeFails t c = none) (n fuel : Nat) (w : World σ τ) (io : Io) (s0 s : Async.St σ τ) (es : List Async.Ev) (x : Option Exn)
    (h0 : Async.create A w io = .ok s0) (hd : .destroy ∉ es) (h : Async.run A fuel es s0 = .ok (s, x)) (hl : ∀ l ∈ s.fed, Suits l) :
    ∃ p shown, desk A n fuel w io (keyedIn s.fed) = .ok (p, x) ∧ Echoes shown s.fed ∧ SameLines shown Eq p.w s.w := by
  have sim := self_sim A hs
  have l0 : Like Eq (Without []) false (newSession A n w io) (newSession A 1 w io) := like_new false rfl rfl rfl rfl rfl rfl rfl (fine_load _ _) rfl rfl rfl
  obtain ⟨ls, rest, _, _, c1, c2⟩ := C72_lines A fuel w io s0 s es x h0 hd h
  unfold Async.create Async.read at h0
  rcases like_prompt (without_more []) l0 with ⟨f, _, k⟩ | ⟨w1, v1, a1, a2, a3, a4, _, a6⟩
  · rw [k] at h0; cases h0
  · rw [a2] at h0; cases h0
    have hlocal : ∀ ks, desk A n fuel w io ks = Processor.run A fuel ks ⟨w1, ⟨[], 0⟩, true⟩ := by
      intro ks
      unfold desk Local.create
      have : enterSession { A with enterSession := none } (newSession A n w io) = (newSession A n w io, none) := by
        unfold enterSession optAction; simp only [he]
      rw [this]
      simp only [a1]
    have hc : w1.exit = false → w1.io.style.color = true → w1.io.style.forced = true := fun hx => a6 (a4 ▸ hx)
    cases x with
    | none =>
      obtain ⟨w', es', b1, b2, _, b4⟩ := executes_typed sim (c1 rfl) [] w1 hl hc a3
      exact ⟨_, es', by rw [hlocal, b1], b4, by simpa using b2.same⟩
    | some e =>
      obtain ⟨ls', l, v2, d1, d2, d3⟩ := c2 e rfl
      rw [d1] at hl ⊢
      obtain ⟨w', es', b1, b2, b3, b4⟩ := executes_typed sim d2 [] w1 (fun l hm => hl l (List.mem_append_left _ hm)) hc a3
      obtain ⟨e', e1, e2⟩ := like_typed b2 b3 l
      have hll := hl l (by simp)
      have k := alike_feed (without_more _) sim fuel l hll.2 e2
      rw [d3] at k
      cases hk : feed A fuel l { w' with io := (typedIo w'.io l).put bs!"\r\n" } with
      | error f => rw [hk] at k; cases k
      | ok r =>
        rw [hk] at k
        cases k with
        | @ok w2 _ _ hlk =>
          refine ⟨⟨w2, ⟨[], 0⟩, false⟩, es' ++ [e'], ?_, ?_, by simpa using hlk.same⟩
          · rw [hlocal, show keyedIn (ls' ++ [l]) = keyedIn ls' ++ (l.map Key.ascii ++ [.ret]) by simp [keyedIn], run_more A fuel _ _ _ _ b1]
            have := typing A fuel l hll.1 [] w'
            rw [List.nil_append] at this
            rw [show (⟨w', ⟨[], 0⟩, true⟩ : Proc σ τ) = ⟨w', ⟨[], ([] : Str).length⟩, true⟩ from rfl, this]
            simp only [enterLine, hk]
          · clear hlk hk e2 b2 b1 hlocal hl c1 c2 d1 d2
            induction b4 with
            | nil => exact .cons e1 .nil
            | cons a _ ih => exact .cons a ih

/-! ### Concrete cases -/

/-- What the application has been told (latest first), what has been written, and what is in the storage. -/
def atEnd (r : Except Fault (Proc (List Nat) (List Str) × Option Exn)) : Option (List Nat × Str × List Str) :=
  match r with
  | .ok (p, _) => some (p.w.app, p.w.io.out, p.w.storage)
  | _ => none

def fileEnd (r : Except Fault (Option (End (List Nat) (List Str)))) : Option (List Nat × Str × List Str) :=
  match r with
  | .ok (some E) => some (E.w.app.1, E.w.io.out, E.w.storage)
  | _ => none

def asyncEnd (r : Except Fault (Async.St (List Nat) (List Str) × Option Exn)) : Option (List Nat × Str × List Str) :=
  match r with
  | .ok (s, _) => some (s.w.app, s.w.io.out, s.w.storage)
  | _ => none

/-- The same lines three times. -/
example :
    fileEnd (start onFile 9 9 (.of bs!"sub go\nany 1\nexit\n") fileWorld) = some ([5, 4], bs!"cli> ok\ncli> ok\ncli> ", [bs!"exit"]) ∧
    asyncEnd (Async.run Sample.app 9 [.data bs!"sub go\nany 1\nexit\n", .line, .line, .line] async0) = some ([5, 4], bs!"cli> ok\ncli> ok\ncli> ", [bs!"exit"]) ∧
    atEnd (desk (atDesk Sample.app nothing) 10 9 Sample.world Sample.io (keyedIn [bs!"sub go", bs!"any 1", bs!"exit"])) =
      some ([5, 4], bs!"cli> sub go\r\nok\ncli> any 1\r\nok\ncli> exit\r\n", [bs!"sub go", bs!"any 1", bs!"exit"]) := by decide +kernel

/-- These lines are such as the theorems demand, as is the sample application. -/
example : ∀ l ∈ [bs!"sub go", bs!"any 1", bs!"exit"], Suits l := by
  intro l hl
  simp only [List.mem_cons, List.not_mem_nil, or_false] at hl
  rcases hl with rfl | rfl | rfl <;> exact ⟨by decide, fun words h => by cases h; exact ⟨by decide, fun arg k => by cases k⟩⟩
example : Sample.app.enterSession = none ∧ Sample.app.enterGlobal = none ∧ (∀ f s, Sample.app.exitGlobal = some f → (f s).exn = none) ∧ ∀ t c, Sample.app.storeFails t c = none := ⟨rfl, rfl, nofun, fun _ _ => rfl⟩
example : ∃ v, FileSession.create Sample.app (.of bs!"any\n") true Sample.world Sample.io = .ok v := ⟨_, rfl⟩

/-- The three pieces that the outputs above differ in. -/
example : Without [bs!"any 1\r\n", bs!"exit\r\n"] bs!"cli> any 1\r\nok\ncli> exit\r\n" bs!"cli> ok\ncli> " :=
  .piece (es := [bs!"any 1\r\n"]) (a := bs!"cli> any 1\r\nok\ncli> ") bs!"exit\r\n" (.more (a := bs!"cli> any 1\r\n") (b := bs!"cli> ") bs!"ok\ncli> " (.piece (es := []) (a := bs!"cli> ") bs!"any 1\r\n" (.same _)))

/-- **C123** Refuted: a file session has a history of one command. It shows less, an earlier command is not executed again by `!`, and of all commands only the last is stored. -/
theorem C123_history_refuted :
    fileEnd (start onFile 9 19 (.of bs!"sub go\nany 1\nhistory\n! 0\nexit\n") fileWorld) = some ([5, 4], bs!"cli> ok\ncli> ok\ncli> \n2\thistory\n\ncli> Index not found in history\ncli> ", [bs!"exit"]) ∧
    atEnd (desk (atDesk Sample.app nothing) 10 9 Sample.world Sample.io (keyedIn [bs!"sub go", bs!"any 1", bs!"history", bs!"! 0", bs!"exit"])) =
      some ([4, 5, 4], bs!"cli> sub go\r\nok\ncli> any 1\r\nok\ncli> history\r\n\n0\tsub go\n1\tany 1\n2\thistory\n\ncli> ! 0\r\nok\ncli> exit\r\n", [bs!"sub go", bs!"any 1", bs!"history", bs!"sub go", bs!"exit"]) := by decide +kernel

/-- **C123** Refuted: a tab separates words in a file; when it is typed, it completes the word before it, and if that does not end in the same command, something else is done. -/
theorem C123_tab_refuted :
    (fileEnd (start onFile 9 9 (.of bs!"s\tgo\n") fileWorld)).map (·.1) = some [] ∧ (atEnd (desk (atDesk Sample.app nothing) 10 9 Sample.world Sample.io (keyedIn [bs!"s\tgo"]))).map (·.1) = some [4] := by decide +kernel

end Verif.Frontend
