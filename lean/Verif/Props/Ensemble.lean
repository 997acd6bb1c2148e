import Verif.Spec.Ensemble
import Verif.Proofs.EnsembleKeys
import Verif.Model.Complete
import Verif.Props.Company
import Verif.Props.Complete
import Verif.Props.ScreenplayTelnet

set_option linter.unusedSimpArgs false

/-!
# Property C132: the program `complete`, with the keys of all users interleaved
-/

namespace Verif.Showcase.Ensemble
open Spec Props
open Terminal (Key)
open Processor (Proc)
open Telnet (telnetApp)
open Net (Life Task)
open TelnetServer (Serv)
open Script (Harmless line_same)
open Company (Mutual Private at_common at_private)
open Transfer (atDesk CalmExit LikeProc AlikeKeys alike_keypressed telnet_sim rel relLeft)

variable {τ α : Type}

/-! ### One key, whatever the session -/

section
variable (E : Env) {store : τ → List Str → τ} {stored : τ → List Str} {telnet : Bool}

/-- Enter. -/
theorem entered (hq : Quiet E) (fuel : Nat) {d : Desk} {p : Proc St τ} (ho : Drafts d p) (hc : p.w.casts = []) (hw : Within E (fuel + 1) d.seat d.text) (hf : ¬ Fails E d.seat d.text) :
    (∃ w' saved, Saves d.seat d.text saved ∧ Processor.keypressed (app E store stored telnet) (fuel + 2) p .ret = .ok (⟨w', ⟨[], 0⟩, true⟩, none) ∧ w'.io.out = p.w.io.out ++ bs!"\r\n" ++ farewell telnet ∧ w'.exit = true ∧ w'.app = ⟨!telnet, false⟩ ∧
      w'.tree = p.w.tree ∧ w'.dis = p.w.dis ∧ w'.io.style.color = p.w.io.style.color ∧ w'.casts = [] ∧ w'.storage = store p.w.storage saved) ∨
    (∃ p' s' t b, Processor.keypressed (app E store stored telnet) (fuel + 2) p .ret = .ok (p', none) ∧ Answer E d.seat d.text s' t ∧ Drafts ⟨s'.prompted, ⟨[], []⟩, b⟩ p' ∧ p'.w.io.out = p.w.io.out ++ bs!"\r\n" ++ t ++ s'.prompt ∧
      Said E d.seat d.text p'.w.casts.flatten ∧ p'.w.storage = p.w.storage ∧ ((Lex.Line d.text [] ∧ b = d.back) ∨ (¬ Lex.Line d.text [] ∧ b = none))) := by
  have hl : p.term.line = d.text := by rw [ho.term]
  have ha : At d.seat { p.w.put bs!"\r\n" with hist := settled (p.w.put bs!"\r\n").hist } := at_io ho.place _ rfl rfl
  have key : Processor.keypressed (app E store stored telnet) (fuel + 2) p .ret = (do
      let (w, x) ← feed (app E store stored telnet) (fuel + 2) d.text (p.w.put bs!"\r\n")
      match x with
      | some e => .ok (⟨w, ⟨[], 0⟩, false⟩, some e)
      | none => do
        let w ← prompt w
        .ok (⟨w, ⟨[], 0⟩, true⟩, none)) := by
    simp only [Processor.keypressed, Terminal.keypressed, bind, Except.bind, Processor.newCommand, hl]
    rfl
  have said : ∀ {w' : W τ}, Told E d.seat d.text { p.w.put bs!"\r\n" with hist := settled (p.w.put bs!"\r\n").hist } w' → Said E d.seat d.text w'.casts.flatten := by
    rintro w' ⟨ts, t1, _, t3⟩
    have : w'.casts = ts := by rw [t1]; show p.w.casts ++ ts = ts; rw [hc]; rfl
    rw [this]
    rcases t3 with ⟨rfl, t4⟩ | ⟨t, rfl, t4⟩
    · exact .inr ⟨rfl, t4⟩
    · exact .inl (by simpa using t4)
  have deep := answer_deep (store := store) (stored := stored) (telnet := telnet) E hq (fuel + 1) 0 ha hw
  rw [show 0 + (fuel + 1) + 1 = fuel + 2 by omega] at deep
  by_cases hblank : Lex.Line d.text []
  · have hfeed : feed (app E store stored telnet) (fuel + 2) d.text { p.w.put bs!"\r\n" with hist := settled (p.w.put bs!"\r\n").hist } = .ok ({ p.w.put bs!"\r\n" with hist := settled (p.w.put bs!"\r\n").hist }, none) := feed_blank _ hblank _ _
    rcases deep with ⟨w', _, e1, _⟩ | ⟨e1, _⟩ | ⟨w', s', t, _, e2, _, _, _, e6⟩
    · exfalso
      cases e1 with
      | exit h => cases line_same hblank h
      | again h _ _ => exact (recalls_kind h).1 hblank
    · exact absurd e1 hf
    · rw [hfeed] at e2
      cases e2
      obtain ⟨io, p1, p2, p3⟩ := prompt_drafts ha
      refine .inr ⟨⟨{ p.w.put bs!"\r\n" with io := io }, ⟨[], 0⟩, true⟩, d.seat, [], d.back, ?_, .blank hblank, ⟨p2, ho.wf, ho.looking, rfl, rfl⟩, ?_, said e6, rfl, .inl ⟨hblank, rfl⟩⟩
      · rw [key, feed_blank _ hblank]
        simp only [bind, Except.bind, p1]
      · show io.out = _
        rw [p3]; simp [World.put, Io.put]
  · obtain ⟨toks, htoks⟩ : ∃ toks, Lex.Line d.text toks := ⟨_, (split_iff _ _).1 (C03_split_total d.text).choose_spec⟩
    have hne : toks ≠ [] := by rintro rfl; exact hblank htoks
    have hfeed : feed (app E store stored telnet) (fuel + 2) d.text (p.w.put bs!"\r\n") = feed (app E store stored telnet) (fuel + 2) d.text { p.w.put bs!"\r\n" with hist := settled (p.w.put bs!"\r\n").hist } := by
      rw [feed_eq _ htoks hne, feed_eq _ htoks hne]
      have : History.newCommand (settled (p.w.put bs!"\r\n").hist) d.text = History.newCommand (p.w.put bs!"\r\n").hist d.text := settled_command ho.wf _
      simp only [this]
      rfl
    rcases deep with ⟨w', saved, e1, e2, e3, e4, e5, e6⟩ | ⟨e1, _⟩ | ⟨w', s', t, _, e2, e3, e4, e5, e6⟩
    · refine .inl ⟨w', saved, e1, ?_, e3, e4, e5, e6.tree, e6.dis, e6.color, e6.casts.trans hc, e6.saved⟩
      rw [key, hfeed, e2]
      simp only [bind, Except.bind, prompt, e4, if_true]
    · exact absurd e1 hf
    · obtain ⟨w2, p1, p2, p3⟩ := prompt_says e4
      obtain ⟨q1, q2⟩ := prompt_quiet p1
      have hset : settled w2.hist = w2.hist := looking_none p2.kept.mode
      have hsd := said e6
      obtain ⟨ts, t1, t2, t3⟩ := e6
      refine .inr ⟨⟨w2, ⟨[], 0⟩, true⟩, s', t, none, ?_, e3, ⟨?_, p2.hist, p2.kept.mode, rfl, rfl⟩, ?_, by rw [q1]; exact hsd, q2.trans t2, .inr ⟨hblank, rfl⟩⟩
      · rw [key, hfeed, e2]
        simp only [bind, Except.bind, p1]
      · show At s'.prompted { w2 with hist := settled w2.hist }
        rw [hset]; exact p2
      · rw [p3, e5]; rfl

/-- Ctrl-D. -/
theorem ended (fuel : Nat) {d : Desk} {p : Proc St τ} (ho : Drafts d p) :
    ∃ p', Processor.keypressed (app E store stored telnet) fuel p .eof = .ok (p', none) ∧ p'.w.io.out = p.w.io.out ++ farewell telnet ∧ p'.w.exit = true ∧ p'.w.app = ⟨!telnet, false⟩ ∧
      p'.w.tree = p.w.tree ∧ p'.w.dis = p.w.dis ∧ p'.w.io.style.color = p.w.io.style.color ∧ p'.w.casts = p.w.casts ∧ p'.w.storage = store p.w.storage d.seat.book.saved := by
  have hg : History.getCommands p.w.hist = .ok d.seat.book.saved := by
    have hk : Kept d.seat.book (settled p.w.hist) := ho.place.kept
    rw [← kept_saved hk]
    unfold History.getCommands
    cases hm : p.w.hist.mode with
    | browsing =>
      have := ho.wf.browse hm
      have hne : p.w.hist.buffer ≠ [] := by intro he; rw [he] at this; simp at this
      simp only [hne, if_false, settled, hm, List.drop_one, List.length_tail]
    | inserting => simp only [settled, hm]
  have ha : p.w.app = ⟨false, false⟩ := ho.place.app
  have hx : ∃ w', exitSession (app E store stored telnet) p.w = .ok (w', none) ∧ w'.io.out = p.w.io.out ++ farewell telnet ∧ w'.exit = true ∧ w'.app = ⟨!telnet, false⟩ ∧
      w'.tree = p.w.tree ∧ w'.dis = p.w.dis ∧ w'.io.style.color = p.w.io.style.color ∧ w'.casts = p.w.casts ∧ w'.storage = store p.w.storage d.seat.book.saved := by
    cases telnet
    · refine ⟨?w1, ?e1, ?_⟩
      case e1 =>
        simp only [exitSession, app, leaves, writes, callAction, optAction, World.effect, World.note, List.foldl_cons, List.foldl_nil, World.act, World.put, Io.put, hg, Bool.false_eq_true, if_false, if_true]
        rfl
      refine ⟨?_, rfl, ?_, rfl, rfl, rfl, rfl, rfl⟩
      · simp [farewell]
      · simp [ha]
    · refine ⟨?w2, ?e2, ?_⟩
      case e2 =>
        simp only [exitSession, app, leaves, writes, callAction, optAction, World.effect, World.note, List.foldl_cons, List.foldl_nil, World.act, World.put, Io.put, hg, Bool.false_eq_true, if_false, if_true]
        rfl
      refine ⟨?_, rfl, ?_, rfl, rfl, rfl, rfl, rfl⟩
      · simp [farewell]
      · simp [ha]
  obtain ⟨w', h1, h2⟩ := hx
  refine ⟨{ p with w := w' }, ?_, h2.1, h2.2.1, h2.2.2.1, h2.2.2.2.1, h2.2.2.2.2.1, h2.2.2.2.2.2.1, h2.2.2.2.2.2.2.1, h2.2.2.2.2.2.2.2⟩
  simp only [Processor.keypressed, Terminal.keypressed, bind, Except.bind, Processor.newCommand]
  rw [show ({ p.w with io := p.w.io } : W τ) = p.w from rfl, h1]

end

/-- A session in a state. -/
def SitsAt (c : Chair) (d : Draft) (p : Proc St τ) : Prop :=
  match c with
  | .empty => False
  | .guest g => Private g (Sessions.owned { p.w with hist := settled p.w.hist }) ∧ History.WF p.w.hist ∧ Looking d.back p.w.hist ∧ p.term = ⟨d.text, d.line.before.length⟩ ∧ p.active = true
  | .leaving t => p.w.io.out = t ∧ p.w.exit = true

theorem drafts_sits {d : Desk} {p : Proc St τ} (h : Drafts d p) : SitsAt (.guest (.of d.seat p.w.io.out)) ⟨d.line, d.back⟩ p := ⟨at_private h.place, h.wf, h.looking, h.term, h.active⟩

section
variable (E : Env) {store : τ → List Str → τ} {stored : τ → List Str}

/-- **One key**: what it does to the session, to what is shared, and what the others hear. -/
theorem turn (hq : Quiet E) (fuel i : Nat) (k : Key) {H : Stage τ} {p : Proc St τ} {g : Guest} (greeting : Str) (ho : H.hall.over = false) (hg : H.hall.chairs i = .guest g)
    (hm : Mutual H.hall (Sessions.shared p.w)) (hp : SitsAt (.guest g) (H.typing i) p) (hc : p.w.casts = []) (hu : ¬ Unclear E (fuel + 2) H (.key i k)) :
    ∃ p' H', Processor.keypressed (app E store stored (i != 0)) (fuel + 2) p k = .ok (p', none) ∧ Plays E store stored greeting H (.key i k) H' ∧ Mutual H'.hall (Sessions.shared p'.w) ∧
      SitsAt (H'.hall.chairs i) (H'.typing i) p' ∧ (∀ j, j ≠ i → H'.hall.chairs j = (H.hall.chairs j).hears p'.w.casts.flatten ∧ H'.typing j = H.typing j) := by
  obtain ⟨hp1, hwf, hlook, hterm, hact⟩ := hp
  have hd : Drafts (H.desk i g) p := ⟨⟨hm.tree, hm.others, hm.color15, hm.color16, hp1.current, hp1.exit, by have := hm.app; rw [ho] at this; exact this, hm.color, hp1.escapes, hp1.hist, hp1.kept⟩, hwf, hlook, hterm, hact⟩
  have hout : p.w.io.out = g.screen := hp1.out
  have hun : ¬ Unsaid E (fuel + 2) (H.desk i g) k := fun x => hu (.inr ⟨g, hg, x⟩)
  -- the session goes on
  have goes : ∀ {p' : Proc St τ} {d' : Desk} {t : Str}, Drafts d' p' → p'.w.io.out = p.w.io.out ++ t → p'.w.storage = p.w.storage → d'.seat.colour = H.hall.colour → d'.seat.gone = H.hall.gone →
      Mutual (H.hall.put i (.guest (.of d'.seat (g.screen ++ t)))) (Sessions.shared p'.w) := by
    intro p' d' t e1 e2 e3 e4 e5
    have := at_common e1.place H.hall.chairs
    rw [e4, e5] at this
    exact ⟨this.tree, this.others, this.color15, this.color16, by show p'.w.app = (⟨H.hall.over, false⟩ : St); rw [ho]; exact this.app, this.color, e3.trans hm.storage⟩
  -- the session ends
  have leaves' : ∀ {w' : W τ} {saved : List Str}, w'.tree = p.w.tree → w'.dis = p.w.dis → w'.io.style.color = p.w.io.style.color → w'.app = ⟨!(i != 0), false⟩ → w'.storage = store p.w.storage saved → ∀ t,
      Mutual { H.hall.put i (.leaving t) with storage := store H.hall.storage saved, over := i == 0 } (Sessions.shared w') := by
    intro w' saved e6 e7 e8 e5 e10 t
    refine ⟨e6.trans hm.tree, ?_, ?_, ?_, ?_, e8.trans hm.color, ?_⟩
    · intro k h1 h2; show w'.dis k = false; rw [e7]; exact hm.others k h1 h2
    · intro h1; show w'.dis _ = _; rw [e7]; exact hm.color15 h1
    · intro h1; show w'.dis _ = _; rw [e7]; exact hm.color16 h1
    · show w'.app = (⟨i == 0, false⟩ : St)
      rw [e5]; cases i <;> rfl
    · show w'.storage = store H.hall.storage saved
      rw [e10]; exact congrArg (store · saved) hm.storage
  by_cases hret : k = .ret
  · subst hret
    rcases entered (store := store) (stored := stored) (telnet := i != 0) E hq fuel hd hc (Classical.byContradiction fun x => hun (.inr x)) (fun x => hun (.inl x)) with ⟨w', saved, e1, e2, e3, e4, e5, e6, e7, e8, e9, e10⟩ | ⟨p', s', t, b, e1, e2, e3, e4, e5, e6, e8⟩
    · refine ⟨_, _, e2, .quits (saved := saved) ho hg e1, leaves' e6 e7 e8 e5 e10 _, ?_, ?_⟩
      · simp only [Hall.put, Stage.write, if_true, SitsAt]
        exact ⟨by rw [e3, hout], e4⟩
      · intro j hj
        simp only [Hall.put, Stage.write, hj, if_false, e9, List.flatten_nil]
        exact ⟨by cases H.hall.chairs j <;> simp [Chair.hears], trivial⟩
    · refine ⟨p', _, e1, .answer ho hg e2 e5 e8, ?_, ?_, ?_⟩
      · have := at_common e3.place H.hall.chairs
        exact ⟨this.tree, this.others, this.color15, this.color16, by show p'.w.app = (⟨H.hall.over, false⟩ : St); rw [ho]; exact this.app, this.color, e6.trans hm.storage⟩
      · have := drafts_sits e3
        rw [e4, hout] at this
        simp only [Stage.write, if_true]
        exact this
      · intro j hj
        simp only [Stage.write, hj, if_false]
        exact ⟨trivial, trivial⟩
  by_cases heof : k = .eof
  · subst heof
    obtain ⟨p', e2, e3, e4, e5, e6, e7, e8, e9, e10⟩ := ended (store := store) (stored := stored) (telnet := i != 0) E (fuel + 2) hd
    refine ⟨p', _, e2, .ends ho hg, leaves' e6 e7 e8 e5 e10 _, ?_, ?_⟩
    · simp only [Hall.put, Stage.write, if_true, SitsAt]
      exact ⟨by rw [e3, hout], e4⟩
    · intro j hj
      simp only [Hall.put, Stage.write, hj, if_false, e9, hc, List.flatten_nil]
      exact ⟨by cases H.hall.chairs j <;> simp [Chair.hears], trivial⟩
  obtain ⟨p', d', t, e1, e2, e3, e4, e5, e6⟩ := pressed E (app E store stored (i != 0)) rfl (fuel + 2) hd hret heof hun
  obtain ⟨f3, f4⟩ := pressed_seat e2
  refine ⟨p', _, e1, .press ho hg e2, goes e3 e4 e6 f3 f4, ?_, ?_⟩
  · have := drafts_sits e3
    rw [e4, hout] at this
    simp only [Hall.put, Stage.write, if_true]
    exact this
  · intro j hj
    simp only [Hall.put, Stage.write, hj, if_false, e5, hc, List.flatten_nil]
    exact ⟨by cases H.hall.chairs j <;> simp [Chair.hears], trivial⟩

/-! ### The same over telnet -/

/-- The session of a client, without its connection. -/
def unplug (v : World (St × Bool) τ) : W τ := ⟨v.app.1, v.tree, v.dis, v.used, v.gen, v.storage, v.io, v.casts, v.hist, v.current, v.exit, v.log⟩

def unplugged (q : Proc (St × Bool) τ) : Proc St τ := ⟨unplug q.w, q.term, q.active⟩

theorem weave_nil {a b c : Str} (h : Weave a b c) : b = [] → c = a := by
  induction h with
  | nil => intro _; rfl
  | left _ s ih => intro hb; rw [ih hb]
  | right _ s ih =>
    intro hb
    have := List.append_eq_nil_iff.1 hb
    rw [this.2, List.append_nil]; exact ih this.1

theorem calm : CalmExit (app E store stored false) (some (leaves true)) := ⟨⟨_, rfl⟩, (by rintro g h s; cases h; rfl), fun _ _ => rfl⟩

theorem like_unplug {p : W τ} {q : World (St × Bool) τ} (h : Transfer.Like (rel (CalmExit (app E store stored false) (some (leaves true))) []) p q) : unplug q = p ∧ q.app.2 = !p.exit := by
  obtain ⟨s, o, h1, h2, rfl⟩ := h
  obtain ⟨h4, _, _, h3⟩ := h1
  have ho : o = p.io.out := weave_nil h2 rfl
  refine ⟨?_, h3 (calm E)⟩
  show (⟨s.1, p.tree, p.dis, p.used, p.gen, p.storage, ⟨p.io.style, o⟩, p.casts, p.hist, p.current, p.exit, p.log⟩ : W τ) = p
  rw [h4, ho]

theorem unplug_like {q : World (St × Bool) τ} (h : q.app.2 = true) (hx : q.exit = false) : Transfer.Like (rel (CalmExit (app E store stored false) (some (leaves true))) []) (unplug q) q := by
  refine ⟨q.app, q.io.out, ⟨rfl, .inl h, ?_, fun _ => ?_⟩, (by have := Weave.nil.left q.io.out; rw [List.nil_append] at this; exact this), rfl⟩
  · intro h1
    have : q.exit = true := h1
    rw [hx] at this; cases this
  · show q.app.2 = !q.exit
    rw [h, hx]; rfl

/-- A key of a client does the same as in a local session with the exit action of the server, and closes the connection if the session ends. -/
theorem client_key {n : Nat} (fuel : Nat) {q : Proc (St × Bool) τ} {k : Key} {p' : Proc St τ} (hc : q.w.app.2 = true) (hx : q.w.exit = false)
    (h : Processor.keypressed (app E store stored true) fuel (unplugged q) k = .ok (p', none)) :
    ∃ q', Processor.keypressed (telnetApp (app E store stored false) (server n).exitAction true) fuel q k = .ok (q', none) ∧ unplugged q' = p' ∧ q'.w.app.2 = !p'.w.exit := by
  have h0 : LikeProc (rel (CalmExit (app E store stored false) (some (leaves true))) []) (unplugged q) q := ⟨unplug_like E hc hx, rfl, rfl⟩
  have hA : Transfer.Sim (app E store stored true) (telnetApp (app E store stored false) (server n).exitAction true) (rel (CalmExit (app E store stored false) (some (leaves true))) []) (relLeft []) := telnet_sim (app E store stored false) (leaves true) []
  rcases alike_keypressed hA fuel (.inr ⟨calm E, hx⟩) h0 k with ⟨f, e1, _⟩ | ⟨p, q', x, e1, e2, e3⟩
  · rw [h] at e1; cases e1
  · rw [h] at e1
    cases e1
    obtain ⟨g1, g2⟩ := like_unplug E e3.w
    refine ⟨q', e2, ?_, g2⟩
    obtain ⟨w, t, a⟩ := p'
    simp only [unplugged, g1, e3.term, e3.active]

/-- A client connects. -/
theorem client_comes (n : Nat) (sh : Sessions.Shared St τ) (tty : Bool) {H : Hall τ} (hm : Mutual H sh) (ho : H.over = false) :
    ∃ q, Telnet.accept (app E store stored false) (server n) (TelnetServer.cliState sh ⟨⟨sh.color, tty, false⟩, []⟩) ⟨⟨sh.color, tty, false⟩, []⟩ = .ok (⟨Telnet.Rx.init, .s1, [], q⟩, none) ∧ q.w.app.2 = true ∧ q.term = ⟨[], 0⟩ ∧ q.active = true ∧
      q.w.casts = [] ∧ q.w.storage = sh.storage ∧
      let s : Seat := ⟨.root, H.colour, H.gone, tty, Book.open n (stored H.storage)⟩
      At s.prompted (unplug q.w) ∧ q.w.io.out = Telnet.greeting ++ s.prompt := by
  let s : Seat := ⟨.root, H.colour, H.gone, tty, Book.open n (stored H.storage)⟩
  let w0 : W τ := newSession (app E store stored true) n (TelnetServer.cliState sh ⟨⟨sh.color, tty, false⟩, []⟩) ⟨⟨sh.color, tty, false⟩, []⟩
  let v0 : World (St × Bool) τ := { app := (w0.app, true), tree := w0.tree, dis := w0.dis, used := w0.used, gen := w0.gen, storage := w0.storage, io := w0.io, casts := w0.casts, hist := w0.hist, current := w0.current, exit := w0.exit, log := w0.log }
  have a0 : At s w0 := by
    have hst : sh.storage = H.storage := hm.storage
    refine ⟨hm.tree, hm.others, hm.color15, hm.color16, ?_, rfl, ?_, hm.color, ?_, ?_, ?_⟩
    · show sh.tree.root.id = _
      rw [hm.tree]; rfl
    · show sh.app = _
      rw [hm.app, ho]
    · show (false || tty) = tty
      simp
    · show History.WF (History.loadCommands (History.init n) (stored sh.storage))
      exact (C33_new_session_ready n _).1
    · show Kept (Book.open n (stored H.storage)) (History.loadCommands (History.init n) (stored sh.storage))
      rw [hst]; exact kept_start n _
  have a1 : At s (w0.put Telnet.greeting) := at_io a0 _ rfl rfl
  have hl : Transfer.Like (rel (CalmExit (app E store stored false) (some (leaves true))) []) (unplug (v0.put Telnet.greeting)) (v0.put Telnet.greeting) := unplug_like E rfl rfl
  have hw : unplug (v0.put Telnet.greeting) = w0.put Telnet.greeting := rfl
  rw [hw] at hl
  obtain ⟨w2, p1, p2, p3⟩ := prompt_says a1
  obtain ⟨q1, q2⟩ := prompt_quiet p1
  rcases Transfer.like_prompt hl with ⟨f, e1, _⟩ | ⟨w', v', e1, e2, e3⟩
  · rw [p1] at e1; cases e1
  · rw [p1] at e1; cases e1
    obtain ⟨g1, g2⟩ := like_unplug E e3
    refine ⟨⟨v', ⟨[], 0⟩, true⟩, ?_, ?_, rfl, rfl, ?_, ?_, ?_⟩
    · have : Telnet.accept (app E store stored false) (server n) (TelnetServer.cliState sh ⟨⟨sh.color, tty, false⟩, []⟩) ⟨⟨sh.color, tty, false⟩, []⟩ =
          (prompt (v0.put Telnet.greeting) >>= fun w => Except.ok (⟨Telnet.Rx.init, .s1, [], ⟨w, ⟨[], 0⟩, true⟩⟩, none)) := rfl
      rw [this, e2]; rfl
    · show v'.app.2 = true
      rw [g2, p2.exit]; rfl
    · show (unplug v').casts = []
      rw [g1, q1]; rfl
    · show (unplug v').storage = _
      rw [g1, q2]; rfl
    · refine ⟨by show At s.prompted (unplug v'); rw [g1]; exact p2, ?_⟩
      show (unplug v').io.out = _
      rw [g1, p3]; rfl

/-- What a client is sent because of its negotiations. -/
theorem rx_negotiates (r : Telnet.Rx) (d : Str) : Negotiates (rxRun r d).2.answer := by
  induction d generalizing r with
  | nil => exact ⟨[], rfl⟩
  | cons c d ih =>
    obtain ⟨l, hl⟩ := ih (rxNext r c).1
    have one : Negotiates (rxNext r c).2.answer := by
      have hd : ∀ s : Telnet.State, Negotiates (Telnet.data s c).2.answer := by
        intro s
        cases s with
        | waitWill =>
          simp only [Telnet.data, Telnet.rxWill, Telnet.iacCmd]
          split
          · exact ⟨[(.will, 3)], rfl⟩
          · split
            · exact ⟨[(.do, 31)], rfl⟩
            · exact ⟨[(.dont, c)], rfl⟩
        | waitDo =>
          simp only [Telnet.data, Telnet.rxDo, Telnet.iacCmd]
          split
          · exact ⟨[(.do, 1)], rfl⟩
          · split
            · exact ⟨[(.will, 3)], rfl⟩
            · exact ⟨[(.wont, c)], rfl⟩
        | _ => exact ⟨[], rfl⟩
      have hc := consume_ok r c
      unfold Telnet.consume at hc
      split at hc
      · split at hc
        · simp only [Except.ok.injEq] at hc; rw [← hc]; exact hd _
        · rename_i h'
          obtain ⟨s', hs⟩ := command_ok r.state c h'
          simp only [hs, bind, Except.bind, Except.ok.injEq] at hc
          rw [← hc]; exact ⟨[], rfl⟩
      · split at hc
        · simp only [Except.ok.injEq] at hc; rw [← hc]; exact ⟨[], rfl⟩
        · simp only [Except.ok.injEq] at hc; rw [← hc]; exact hd _
    obtain ⟨l1, h1⟩ := one
    exact ⟨l1 ++ l, by simp only [rxRun, h1, hl, List.flatMap_append]⟩

/-! ### The program -/

/-- The session of a client. -/
def SitsNet (c : Chair) (l : Draft) (x : Life St τ) : Prop :=
  match c with
  | .empty => Net.owned x.op x.queue = false
  | .guest g => Net.owned x.op x.queue = true ∧ SitsAt (.guest g) l (unplugged x.tel.proc) ∧ x.tel.proc.w.app.2 = true
  | .leaving t => Net.owned x.op x.queue = true ∧ SitsAt (.leaving t) l (unplugged x.tel.proc) ∧ x.tel.proc.w.app.2 = false

/-- What an event is to the users. -/
def cues (n : Nat) (s : Complete.St St τ α) : Complete.Ev α → List Cue
  | .task => (s.loc.kb.posted[s.loc.handled]?).toList.map (.key 0)
  | .net (.client tty) => [.comes (s.serv.conns.length + 1) n tty]
  | .net (.conn j (.exec i _)) =>
    match s.serv.conns[j]? with
    | none => []
    | some l =>
      match l.queue[i]? with
      | none => []
      | some (.key k) => [.key (j + 1) k]
      | some (.read d) => if l.tel.proc.w.app.2 then [.answers (j + 1) (rxRun l.tel.rx d).2.answer] else [.goes (j + 1)]
      | some .fail => [.goes (j + 1)]
  | _ => []

structure Fits (H : Stage τ) (s : Complete.St St τ α) : Prop where
  common : Mutual H.hall s.serv.sh
  loc : SitsAt (H.hall.chairs 0) (H.typing 0) s.loc.proc
  live : s.phase = .run → s.loc.live = true
  nets : s.phase ≠ .over → ∀ j l, s.serv.conns[j]? = some l → SitsNet (H.hall.chairs (j + 1)) (H.typing (j + 1)) l ∧ Orderly l
  rest : ∀ j, s.serv.conns.length ≤ j → H.hall.chairs (j + 1) = .empty

theorem sitsAt_hears {c : Chair} {l : Draft} {p : Proc St τ} (h : SitsAt c l p) (t : Str) : SitsAt (c.hears t) l { p with w := { p.w with io := { p.w.io with out := p.w.io.out ++ t } } } := by
  cases c with
  | empty => exact h
  | guest g => exact ⟨⟨h.1.current, h.1.exit, h.1.escapes, h.1.hist, h.1.kept, by show p.w.io.out ++ t = _; rw [show p.w.io.out = g.screen from h.1.out]⟩, h.2⟩
  | leaving s => exact ⟨by show p.w.io.out ++ t = _; rw [h.1], h.2⟩

theorem sitsNet_hears {c : Chair} {l : Draft} {x : Life St τ} (h : SitsNet c l x) (t : Str) : SitsNet (c.hears t) l (TelnetServer.hears t x) := by
  unfold TelnetServer.hears
  cases c with
  | empty => rw [if_neg (by rw [show Net.owned x.op x.queue = false from h]; simp)]; exact h
  | guest g => rw [if_pos h.1]; exact ⟨h.1, sitsAt_hears h.2.1 t, h.2.2⟩
  | leaving s => rw [if_pos h.1]; exact ⟨h.1, sitsAt_hears h.2.1 t, h.2.2⟩

theorem orderly_hears {x : Life St τ} (h : Orderly x) (t : Str) : Orderly (TelnetServer.hears t x) := by
  unfold TelnetServer.hears
  split
  · exact ⟨h.shape, h.closed⟩
  · exact h

theorem sitsAt_private {c : Chair} {l : Draft} {p p' : Proc St τ} (h : SitsAt c l p) (ho : Sessions.owned p'.w = Sessions.owned p.w) (ht : p'.term = p.term) (ha : p'.active = p.active) : SitsAt c l p' := by
  cases c with
  | empty => exact h
  | guest g =>
    have hh : p'.w.hist = p.w.hist := congrArg Sessions.Own.hist ho
    have h1 : Sessions.owned { p'.w with hist := settled p'.w.hist } = Sessions.owned { p.w with hist := settled p.w.hist } := by
      have : ∀ w : W τ, Sessions.owned { w with hist := settled w.hist } = { Sessions.owned w with hist := settled (Sessions.owned w).hist } := fun _ => rfl
      rw [this, this, ho]
    exact ⟨by rw [h1]; exact h.1, by rw [hh]; exact h.2.1, by rw [hh]; exact h.2.2.1, ht.trans h.2.2.2.1, ha.trans h.2.2.2.2⟩
  | leaving t =>
    have h1 : p'.w.io.out = p.w.io.out := congrArg Sessions.Own.out ho
    have h2 : p'.w.exit = p.w.exit := congrArg Sessions.Own.exit ho
    exact ⟨h1.trans h.1, h2.trans h.2⟩

theorem performance_one {greeting : Str} {H H' : Stage τ} {m : Cue} (h : Plays E store stored greeting H m H') : Performance E store stored greeting H [m] H' := .cons h .nil

theorem stopped_over {H : Hall τ} {sh : Sessions.Shared St τ} (h : Mutual H sh) (hs : sh.app.stopped = false) : H.over = false := by
  have := congrArg St.stopped h.app
  rw [← hs]; exact this.symm

variable (p : Platform) (manual : α → α) (n : Nat)

/-- A key of the local user. -/
theorem task_fits (hq : Quiet E) (fuel : Nat) {H : Stage τ} {s : Complete.St St τ α} (h : Fits H s)
    (hu : ∀ m ∈ cues n s .task, ¬ Unclear E (fuel + 2) H m) :
    Complete.step (app E store stored false) (server n) St.stopped (fuel + 2) p manual s .task = .ok none ∨
    ∃ s' H', Complete.step (app E store stored false) (server n) St.stopped (fuel + 2) p manual s .task = .ok (some (s', none)) ∧ Performance E store stored Telnet.greeting H (cues n s .task) H' ∧ Fits H' s' := by
  simp only [Complete.step]
  split
  case isFalse => exact .inl rfl
  case isTrue hcond =>
  cases hb : s.loc.busy with
  | true =>
    have hl : Local.step (app E store stored false) (fuel + 2) p manual (Complete.seenLocal s.serv.sh s.loc) .task = .ok none := by
      simp only [Local.step]; rw [if_pos (show (Complete.seenLocal s.serv.sh s.loc).busy = true from hb)]
    rw [hl]; exact .inl rfl
  | false =>
  cases hkey' : s.loc.kb.posted[s.loc.handled]? with
  | none =>
    have hl : Local.step (app E store stored false) (fuel + 2) p manual (Complete.seenLocal s.serv.sh s.loc) .task = .ok none := by
      simp only [Local.step]; rw [if_neg (by rw [show (Complete.seenLocal s.serv.sh s.loc).busy = false from hb]; simp), show (Complete.seenLocal s.serv.sh s.loc).kb.posted[(Complete.seenLocal s.serv.sh s.loc).handled]? = none from hkey']
    rw [hl]; exact .inl rfl
  | some key =>
  have hcu : cues n s .task = [.key 0 key] := by simp only [cues, hkey', Option.toList_some, List.map_cons, List.map_nil]
  rw [hcu] at hu ⊢
  have hu0 := hu _ (List.mem_singleton.2 rfl)
  have ho := stopped_over h.common hcond.2
  have hloc := h.loc
  obtain ⟨g, hg⟩ : ∃ g, H.hall.chairs 0 = .guest g := by
    cases hx : H.hall.chairs 0 with
    | guest g => exact ⟨g, rfl⟩
    | empty => rw [hx] at hloc; exact hloc.elim
    | leaving t =>
      exfalso
      exact hu0 (.inl fun g hg => by rw [hx] at hg; cases hg)
  rw [hg] at hloc
  obtain ⟨p', H', e1', e2, e3, e4, e5⟩ := turn E hq fuel 0 key (p := (Complete.seenLocal s.serv.sh s.loc).proc) Telnet.greeting ho hg h.common hloc rfl hu0
  rw [show ((0 : Nat) != 0) = false from rfl] at e1'
  have fits : ∀ l' : Local.St St τ α, l'.proc = p' → (s.phase = .run → l'.live = true) →
      Fits H' { s with loc := l', serv := { s.serv with sh := Sessions.shared p'.w, conns := s.serv.conns.map (TelnetServer.hears p'.w.casts.flatten) } } := by
    intro l' hl' hlive
    refine ⟨e3, by show SitsAt _ _ l'.proc; rw [hl']; exact e4, hlive, fun hph j x hx => ?_, fun j hj => ?_⟩
    · simp only [List.getElem?_map] at hx
      cases hx0 : s.serv.conns[j]? with
      | none => rw [hx0] at hx; cases hx
      | some y =>
        rw [hx0] at hx; cases hx
        obtain ⟨k1, k2⟩ := h.nets hph j y hx0
        rw [(e5 (j + 1) (by omega)).1, (e5 (j + 1) (by omega)).2]
        exact ⟨sitsNet_hears k1 _, orderly_hears k2 _⟩
    · rw [(e5 (j + 1) (by omega)).1, h.rest j (by simpa using hj)]; rfl
  have hl : ∃ l' : Local.St St τ α, Local.step (app E store stored false) (fuel + 2) p manual (Complete.seenLocal s.serv.sh s.loc) .task = .ok (some (l', none)) ∧ l'.proc = p' ∧ l'.live = s.loc.live := by
    simp only [Local.step]
    rw [if_neg (by rw [show (Complete.seenLocal s.serv.sh s.loc).busy = false from hb]; simp), show (Complete.seenLocal s.serv.sh s.loc).kb.posted[(Complete.seenLocal s.serv.sh s.loc).handled]? = some key from hkey']
    dsimp only
    rw [if_pos (show (Complete.seenLocal s.serv.sh s.loc).live = true from h.live hcond.1), e1']
    dsimp only
    by_cases hr : key = .ret
    · rw [if_pos hr]; exact ⟨_, rfl, rfl, rfl⟩
    · rw [if_neg hr]; exact ⟨_, rfl, rfl, rfl⟩
  obtain ⟨l', hl1, hl2, hl3⟩ := hl
  rw [hl1]
  dsimp only
  rw [hl2]
  exact .inr ⟨_, H', rfl, performance_one E e2, fits l' hl2 (fun hph => by rw [hl3]; exact h.live hph)⟩

theorem hears_nil (c : Chair) : c.hears [] = c := by cases c <;> simp [Chair.hears]

theorem sitsNet_same {c : Chair} {l : Draft} {x y : Life St τ} (h : SitsNet c l x) (hc : c ≠ .empty) (hy : Net.owned y.op y.queue = true) (ho : Sessions.owned (unplug y.tel.proc.w) = Sessions.owned (unplug x.tel.proc.w))
    (ht : y.tel.proc.term = x.tel.proc.term) (ha : y.tel.proc.active = x.tel.proc.active) (h2 : y.tel.proc.w.app.2 = x.tel.proc.w.app.2) : SitsNet c l y := by
  cases c with
  | empty => exact absurd rfl hc
  | guest g => exact ⟨hy, sitsAt_private h.2.1 ho ht ha, h2.trans h.2.2⟩
  | leaving t => exact ⟨hy, sitsAt_private h.2.1 ho ht ha, h2.trans h.2.2⟩

theorem sitsNet_there {c : Chair} {l : Draft} {x : Life St τ} (h : SitsNet c l x) (hx : Net.owned x.op x.queue = true) : c ≠ .empty := by
  rintro rfl
  rw [show Net.owned x.op x.queue = false from h] at hx; cases hx

theorem orderly_owned {x : Life St τ} (h : Orderly x) (hq : x.queue ≠ []) : Net.owned x.op x.queue = true := by
  obtain ⟨⟨ks, ⟨h1, _⟩ | ⟨_, ⟨_, h2⟩ | ⟨t, ht, h2⟩⟩⟩, _⟩ := h
  · simp [Net.owned, h1]
  · exact absurd h2 hq
  · simp [Net.owned, h2, ht]

theorem orderly_last {x : Life St τ} (h : Orderly x) {t : Task} (ht : t.owns = true) (hq : x.queue[0]? = some t) : x.op = false ∧ x.queue = [t] := by
  obtain ⟨⟨ks, ⟨_, h2⟩ | ⟨h1, ⟨_, h2⟩ | ⟨u, hu, h2⟩⟩⟩, _⟩ := h
  · rw [h2] at hq
    cases ks with
    | nil => cases hq
    | cons k ks => simp at hq; rw [← hq] at ht; cases ht
  · rw [h2] at hq; cases hq
  · rw [h2] at hq
    cases ks with
    | nil => simp at hq; exact ⟨h1, by rw [h2, hq]; rfl⟩
    | cons k ks => simp at hq; rw [← hq] at ht; cases ht

/-- What an event is to a client. -/
def connCues (j : Nat) (l : Life St τ) : Net.Ev → List Cue
  | .exec i _ =>
    match l.queue[i]? with
    | none => []
    | some (.key k) => [.key (j + 1) k]
    | some (.read d) => if l.tel.proc.w.app.2 then [.answers (j + 1) (rxRun l.tel.rx d).2.answer] else [.goes (j + 1)]
    | some .fail => [.goes (j + 1)]
  | _ => []

/-- The peer is there when its session ends. -/
def Reached : Net.Ev → Prop
  | .exec _ alive => alive = true
  | _ => True

/-- Something happens to a client. -/
theorem conn_fits (hq : Quiet E) (fuel j : Nat) {H : Stage τ} {sh : Sessions.Shared St τ} {l : Life St τ} {e : Net.Ev} (hm : Mutual H.hall sh) (ho : H.hall.over = false)
    (hl : SitsNet (H.hall.chairs (j + 1)) (H.typing (j + 1)) l) (hor : Orderly l) (h1 : OneThread e) (h2 : Reached e)
    (hu : ∀ m ∈ connCues j l e, ¬ Unclear E (fuel + 2) H m) :
    Net.step (app E store stored false) (server n) (fuel + 2) (TelnetServer.seenLife sh l) e = .ok none ∨
    ∃ l' H', Net.step (app E store stored false) (server n) (fuel + 2) (TelnetServer.seenLife sh l) e = .ok (some (l', none)) ∧ Performance E store stored Telnet.greeting H (connCues j l e) H' ∧
      Mutual H'.hall (TelnetServer.left l'.tel.proc.w) ∧ SitsNet (H'.hall.chairs (j + 1)) (H'.typing (j + 1)) l' ∧ (∀ i, i ≠ j + 1 → H'.hall.chairs i = (H.hall.chairs i).hears l'.tel.proc.w.casts.flatten ∧ H'.typing i = H.typing i) := by
  have same : ∀ i, H.hall.chairs i = (H.hall.chairs i).hears ([] : List Str).flatten ∧ H.typing i = H.typing i := fun i => ⟨(hears_nil _).symm, rfl⟩
  have waits : ∀ t : Task, t.owns = true → l.op = true → SitsNet (H.hall.chairs (j + 1)) (H.typing (j + 1)) { TelnetServer.seenLife sh l with queue := (TelnetServer.seenLife sh l).queue ++ [t], op := false } := by
    intro t ht hop
    refine sitsNet_same hl (sitsNet_there hl (by simp [Net.owned, hop])) ?_ rfl rfl rfl rfl
    simp [Net.owned, ht]
  have leaves' : Net.owned l.op l.queue = true → ∀ x : Life St τ, Net.owned x.op x.queue = false → TelnetServer.left x.tel.proc.w = sh → x.tel.proc.w.casts = [] → ∀ ms, ms = [Cue.goes (j + 1)] →
      ∃ H', Performance E store stored Telnet.greeting H ms H' ∧
      Mutual H'.hall (TelnetServer.left x.tel.proc.w) ∧ SitsNet (H'.hall.chairs (j + 1)) (H'.typing (j + 1)) x ∧ (∀ i, i ≠ j + 1 → H'.hall.chairs i = (H.hall.chairs i).hears x.tel.proc.w.casts.flatten ∧ H'.typing i = H.typing i) := by
    intro how x hx hsh hcs ms hms
    rw [hms, hsh, hcs]
    refine ⟨_, performance_one E (.goes ho (by omega) (sitsNet_there hl how)), ⟨hm.tree, hm.others, hm.color15, hm.color16, hm.app, hm.color, hm.storage⟩, ?_, ?_⟩
    · simp only [Hall.put, if_true]; exact hx
    · intro i hi
      simp only [Hall.put, hi, if_false]
      exact ⟨(same i).1, trivial⟩
  cases e with
  | arrive d =>
    simp only [Net.step]
    cases hop : l.op with
    | false => exact .inl (by rw [if_neg (by rw [show (TelnetServer.seenLife sh l).op = false from hop]; simp)])
    | true =>
      rw [if_pos (show (TelnetServer.seenLife sh l).op = true from hop)]
      exact .inr ⟨_, H, rfl, .nil, hm, waits _ rfl hop, fun i _ => same i⟩
  | lost =>
    simp only [Net.step]
    cases hop : l.op with
    | false => exact .inl (by rw [if_neg (by rw [show (TelnetServer.seenLife sh l).op = false from hop]; simp)])
    | true =>
      rw [if_pos (show (TelnetServer.seenLife sh l).op = true from hop)]
      exact .inr ⟨_, H, rfl, .nil, hm, waits _ rfl hop, fun i _ => same i⟩
  | exec i alive =>
    cases (show i = 0 from h1)
    cases (show alive = true from h2)
    simp only [Net.step]
    simp only [connCues] at hu ⊢
    have hqq : (TelnetServer.seenLife sh l).queue = l.queue := rfl
    rw [hqq]
    cases hq0 : l.queue[0]? with
    | none => exact .inl rfl
    | some t =>
    rw [hq0] at hu
    have hne : l.queue ≠ [] := by rintro h; rw [h] at hq0; cases hq0
    have how := orderly_owned hor hne
    cases t with
    | fail =>
      obtain ⟨o1, o2⟩ := orderly_last hor (t := .fail) rfl hq0
      obtain ⟨H', k⟩ := leaves' how { TelnetServer.seenLife sh l with queue := l.queue.eraseIdx 0 } (by show Net.owned l.op (l.queue.eraseIdx 0) = false; rw [o1, o2]; rfl) rfl rfl _ rfl
      exact .inr ⟨_, H', rfl, k⟩
    | read d =>
      obtain ⟨o1, o2⟩ := orderly_last hor (t := .read d) rfl hq0
      dsimp only at hu ⊢
      cases hcon : l.tel.proc.w.app.2 with
      | false =>
        rw [if_neg (by rw [show (TelnetServer.seenLife sh l).tel.proc.w.app.2 = false from hcon]; simp)]
        obtain ⟨H', k⟩ := leaves' how { TelnetServer.seenLife sh l with queue := l.queue.eraseIdx 0 } (by show Net.owned l.op (l.queue.eraseIdx 0) = false; rw [o1, o2]; rfl) rfl rfl [.goes (j + 1)] rfl
        exact .inr ⟨_, H', rfl, by simpa using k⟩
      | true =>
        rw [if_pos (show (TelnetServer.seenLife sh l).tel.proc.w.app.2 = true from hcon), received_after]
        obtain ⟨g, hg⟩ : ∃ g, H.hall.chairs (j + 1) = .guest g := by
          cases hx : H.hall.chairs (j + 1) with
          | guest g => exact ⟨g, rfl⟩
          | empty => exact absurd hx (sitsNet_there hl how)
          | leaving t => rw [hx] at hl; rw [hl.2.2] at hcon; cases hcon
        rw [hg] at hl
        have hneg := rx_negotiates l.tel.rx d
        refine .inr ⟨_, _, rfl, performance_one E (.answers ho hg hneg), ⟨hm.tree, hm.others, hm.color15, hm.color16, hm.app, hm.color, hm.storage⟩, ?_, ?_⟩
        · simp only [Hall.put, if_true]
          refine ⟨by simp [Net.owned], ⟨⟨hl.2.1.1.current, hl.2.1.1.exit, hl.2.1.1.escapes, hl.2.1.1.hist, hl.2.1.1.kept, ?_⟩, hl.2.1.2⟩, hcon⟩
          show l.tel.proc.w.io.out ++ _ = _
          rw [show l.tel.proc.w.io.out = g.screen from hl.2.1.1.out]
          rfl
        · intro i hi
          simp only [Hall.put, hi, if_false]
          exact ⟨(same i).1, trivial⟩
    | key k =>
      dsimp only at hu ⊢
      obtain ⟨rest, hrest⟩ : ∃ rest, l.queue = .key k :: rest := by
        cases hx : l.queue with
        | nil => exact absurd hx hne
        | cons a rest => rw [hx] at hq0; cases hq0; exact ⟨rest, rfl⟩
      have hor' : Net.owned l.op rest = true := by
        rw [hrest] at how
        simpa [Net.owned, Task.owns] using how
      rw [hrest, List.eraseIdx_cons_zero, if_pos (show Net.owned (TelnetServer.seenLife sh l).op rest = true from hor')]
      have hu0 := hu _ (List.mem_singleton.2 rfl)
      obtain ⟨g, hg⟩ : ∃ g, H.hall.chairs (j + 1) = .guest g := by
        exact Classical.byContradiction fun hx => hu0 (.inl fun g hg => hx ⟨g, hg⟩)
      rw [hg] at hl
      obtain ⟨p', H', e1', e2, e3, e4, e5⟩ := turn (store := store) (stored := stored) E hq fuel (j + 1) k (p := unplugged (TelnetServer.seenLife sh l).tel.proc) Telnet.greeting ho hg hm hl.2.1 rfl hu0
      obtain ⟨q', f1, f2, f3⟩ := client_key (n := n) E (fuel + 2) (q := (TelnetServer.seenLife sh l).tel.proc) hl.2.2 hl.2.1.1.exit e1'
      rw [f1]
      dsimp only
      have hcasts : q'.w.casts = p'.w.casts := by rw [← f2]; rfl
      have hleft : TelnetServer.left q'.w = Sessions.shared p'.w := by rw [← f2]; rfl
      have out : ∀ x : Life St τ, x.tel.proc = q' → Net.owned x.op x.queue = true →
          Performance E store stored Telnet.greeting H [.key (j + 1) k] H' ∧
          Mutual H'.hall (TelnetServer.left x.tel.proc.w) ∧ SitsNet (H'.hall.chairs (j + 1)) (H'.typing (j + 1)) x ∧ (∀ i, i ≠ j + 1 → H'.hall.chairs i = (H.hall.chairs i).hears x.tel.proc.w.casts.flatten ∧ H'.typing i = H.typing i) := by
        intro x hx hxo
        rw [hx, hleft, hcasts]
        refine ⟨performance_one E e2, e3, ?_, e5⟩
        · cases hch : H'.hall.chairs (j + 1) with
          | empty => rw [hch] at e4; exact e4.elim
          | guest g' =>
            rw [hch] at e4
            have hex : p'.w.exit = false := e4.1.exit
            exact ⟨hxo, by rw [hx, f2]; exact e4, by rw [hx, f3, hex]; rfl⟩
          | leaving t =>
            rw [hch] at e4
            exact ⟨hxo, by rw [hx, f2]; exact e4, by rw [hx, f3, e4.2]; rfl⟩
      split
      · exact .inr ⟨_, H', rfl, out _ rfl (by simp [Net.owned, Task.owns])⟩
      · exact .inr ⟨_, H', rfl, out _ rfl hor'⟩

theorem getElem?_single {β : Type} {l : List β} {x y : β} {j : Nat} (h : (l ++ [x])[j]? = some y) : (j < l.length ∧ l[j]? = some y) ∨ (j = l.length ∧ x = y) := by
  rw [List.getElem?_append] at h
  split at h
  · rename_i hlt; exact .inl ⟨hlt, h⟩
  · rename_i hge
    cases hj : j - l.length with
    | zero => rw [hj] at h; exact .inr ⟨by omega, by simpa using h⟩
    | succ m => rw [hj] at h; simp at h

/-- One thread runs the scheduler, and peers are there when their sessions end. -/
def Proper : Complete.Ev α → Prop
  | .net (.conn _ e) => OneThread e ∧ Reached e
  | _ => True

/-- Something happens at the server. -/
theorem net_fits (hq : Quiet E) (fuel : Nat) {H : Stage τ} {s : Complete.St St τ α} (h : Fits H s) (e : TelnetServer.Ev)
    (he : Proper (α := α) (.net e)) (hu : ∀ m ∈ cues n s (.net e), ¬ Unclear E (fuel + 2) H m) :
    Complete.step (app E store stored false) (server n) St.stopped (fuel + 2) p manual s (.net e) = .ok none ∨
    ∃ s' H', Complete.step (app E store stored false) (server n) St.stopped (fuel + 2) p manual s (.net e) = .ok (some (s', none)) ∧ Performance E store stored Telnet.greeting H (cues n s (.net e)) H' ∧ Fits H' s' := by
  simp only [Complete.step]
  split
  case isFalse => exact .inl rfl
  case isTrue hcond =>
  have ho := stopped_over h.common hcond.2.1
  have hrun : s.phase ≠ .over := by rw [hcond.1]; simp
  cases e with
  | error =>
    cases hacc : s.serv.accepting with
    | false => simp only [TelnetServer.step, hacc, Bool.false_eq_true, if_false]; exact .inl trivial
    | true =>
      simp only [TelnetServer.step, hacc, if_true]
      refine .inr ⟨_, H, rfl, .nil, h.common, ?_, h.live, h.nets, h.rest⟩
      have := sitsAt_hears h.loc (Complete.casts (app E store stored false) (server n) (fuel + 2) s.serv .error)
      rw [show Complete.casts (app E store stored false) (server n) (fuel + 2) s.serv .error = [] from rfl, hears_nil] at this
      exact this
  | client tty =>
    cases hacc : s.serv.accepting with
    | false => simp only [TelnetServer.step, hacc, Bool.false_eq_true, if_false]; exact .inl trivial
    | true =>
      obtain ⟨q, c1, c2, c3, c4, c5, c6, c7, c8⟩ := client_comes (store := store) (stored := stored) E n s.serv.sh tty h.common ho
      have hst : Net.start (app E store stored false) (server n) (TelnetServer.cliState s.serv.sh ⟨⟨s.serv.sh.color, tty, false⟩, []⟩) ⟨⟨s.serv.sh.color, tty, false⟩, []⟩ = .ok (⟨⟨Telnet.Rx.init, .s1, [], q⟩, [], true⟩, none) := by
        simp only [Net.start, c1]
      have hcasts : Complete.casts (app E store stored false) (server n) (fuel + 2) s.serv (.client tty) = [] := by
        simp only [Complete.casts, hst, Complete.fresh, c5, List.flatten_nil]
      simp only [TelnetServer.step, hacc, if_true, hst, hcasts]
      have hemp := h.rest s.serv.conns.length (Nat.le_refl _)
      refine .inr ⟨_, _, rfl, performance_one E (.comes ho hemp rfl), ?_, ?_, h.live, ?_, ?_⟩
      · have := at_common c7 H.hall.chairs
        refine ⟨this.tree, this.others, this.color15, this.color16, ?_, this.color, c6.trans h.common.storage⟩
        show q.w.app.1 = (⟨H.hall.over, false⟩ : St)
        rw [ho]; exact this.app
      · have := sitsAt_hears h.loc []
        rw [hears_nil] at this
        simpa [Hall.put, Stage.write, Complete.hearsLocal] using this
      · intro _ j x hx
        have hx' : (s.serv.conns.map (TelnetServer.hears q.w.casts.flatten) ++ [(⟨⟨Telnet.Rx.init, .s1, [], q⟩, [], true⟩ : Life St τ)])[j]? = some x := hx
        rcases getElem?_single hx' with ⟨hlt, hx1⟩ | ⟨hj, hx1⟩
        · rw [List.length_map] at hlt
          rw [List.getElem?_map] at hx1
          cases hx0 : s.serv.conns[j]? with
          | none => rw [hx0] at hx1; cases hx1
          | some y =>
            rw [hx0] at hx1; cases hx1
            obtain ⟨k1, k2⟩ := h.nets hrun j y hx0
            have hne : j + 1 ≠ s.serv.conns.length + 1 := by omega
            simp only [Hall.put, Stage.write, hne, if_false, c5, List.flatten_nil]
            have := sitsNet_hears k1 []
            rw [hears_nil] at this
            exact ⟨this, orderly_hears k2 []⟩
        · rw [List.length_map] at hj
          subst hj
          subst hx1
          simp only [Hall.put, Stage.write, if_true]
          refine ⟨⟨rfl, ⟨?_, c7.hist, c7.kept.mode, c3, c4⟩, c2⟩, ⟨[], .inl ⟨rfl, rfl⟩⟩, fun hcl => ?_⟩
          · have := at_private c7
            rw [show (unplug q.w).io.out = q.w.io.out from rfl, c8] at this
            have hst : settled (unplug q.w).hist = (unplug q.w).hist := looking_none c7.kept.mode
            show Private _ (Sessions.owned { unplug q.w with hist := settled (unplug q.w).hist })
            rw [hst]
            exact this
          · have hcl' : q.w.app.2 = false := hcl
            rw [c2] at hcl'; cases hcl'
      · intro j hj
        simp only [List.length_append, List.length_map, List.length_cons, List.length_nil] at hj
        have hne : j + 1 ≠ s.serv.conns.length + 1 := by omega
        simp only [Hall.put, hne, if_false]
        exact h.rest j (by omega)
  | conn j e =>
    cases hl : s.serv.conns[j]? with
    | none => simp only [TelnetServer.step, hl]; exact .inl trivial
    | some l =>
    obtain ⟨k1, k2⟩ := h.nets hrun j l hl
    have hcu : cues n s (.net (.conn j e)) = connCues j l e := by
      cases e with
      | exec i alive => simp only [cues, connCues, hl]
      | _ => rfl
    rw [hcu] at hu ⊢
    rcases conn_fits (store := store) (stored := stored) (n := n) E hq fuel j h.common ho k1 k2 he.1 he.2 hu with hn | ⟨l', H', e1, e2, e3, e4, e5⟩
    · simp only [TelnetServer.step, hl, hn]; exact .inl trivial
    · have hcasts : Complete.casts (app E store stored false) (server n) (fuel + 2) s.serv (.conn j e) = l'.tel.proc.w.casts.flatten := by
        simp only [Complete.casts, hl, e1, Complete.fresh]
      simp only [TelnetServer.step, hl, e1, hcasts]
      have hlt : j < s.serv.conns.length := by
        rcases Nat.lt_or_ge j s.serv.conns.length with hlt | hge
        · exact hlt
        · rw [List.getElem?_eq_none hge] at hl; cases hl
      refine .inr ⟨_, H', rfl, e2, e3, ?_, h.live, ?_, ?_⟩
      · rw [(e5 0 (by omega)).1, (e5 0 (by omega)).2]
        exact sitsAt_hears h.loc _
      · intro _ i x hx
        have hx' : ((s.serv.conns.map (TelnetServer.hears l'.tel.proc.w.casts.flatten)).set j l')[i]? = some x := hx
        by_cases hi : i = j
        · subst hi
          rw [List.getElem?_set_self (by simpa using hlt)] at hx'
          cases hx'
          exact ⟨e4, orderly_step (s := TelnetServer.seenLife s.serv.sh l) ⟨k2.shape, k2.closed⟩ he.1 e1⟩
        · rw [List.getElem?_set_ne (fun h => hi h.symm), List.getElem?_map] at hx'
          cases hx0 : s.serv.conns[i]? with
          | none => rw [hx0] at hx'; cases hx'
          | some y =>
            rw [hx0] at hx'; cases hx'
            obtain ⟨m1, m2⟩ := h.nets hrun i y hx0
            rw [(e5 (i + 1) (by omega)).1, (e5 (i + 1) (by omega)).2]
            exact ⟨sitsNet_hears m1 _, orderly_hears m2 _⟩
      · intro i hi
        simp only [List.length_set, List.length_map] at hi
        rw [(e5 (i + 1) (by omega)).1, h.rest i hi]; rfl

/-- Anything happens. -/
theorem step_fits (hq : Quiet E) (fuel : Nat) {H : Stage τ} {s : Complete.St St τ α} (h : Fits H s) (e : Complete.Ev α)
    (he : Proper e) (hu : ∀ m ∈ cues n s e, ¬ Unclear E (fuel + 2) H m) :
    Complete.step (app E store stored false) (server n) St.stopped (fuel + 2) p manual s e = .ok none ∨
    ∃ s' H', Complete.step (app E store stored false) (server n) St.stopped (fuel + 2) p manual s e = .ok (some (s', none)) ∧ Performance E store stored Telnet.greeting H (cues n s e) H' ∧ Fits H' s' := by
  have quiet : ∀ s' : Complete.St St τ α, s'.serv.sh = s.serv.sh → s'.loc.proc = s.loc.proc → (s'.phase = .run → s.phase = .run ∧ s'.loc.live = s.loc.live) → (s'.phase ≠ .over → s.phase ≠ .over ∧ s'.serv.conns = s.serv.conns) → s'.serv.conns.length = s.serv.conns.length → Fits H s' := by
    intro s' h1 h2 h3 h4 h5
    refine ⟨by rw [h1]; exact h.common, by rw [h2]; exact h.loc, fun hr => by rw [(h3 hr).2]; exact h.live (h3 hr).1, fun ho => ?_, fun j hj => h.rest j (by rw [← h5]; exact hj)⟩
    rw [(h4 ho).2]; exact h.nets (h4 ho).1
  cases e with
  | task => exact task_fits E p manual n hq fuel h hu
  | net e => exact net_fits E p manual n hq fuel h e he hu
  | kb e =>
    simp only [Complete.step]
    cases hl : Local.step (app E store stored false) (fuel + 2) p manual s.loc (.kb e) with
    | error f => exact absurd hl local_kb_defined
    | ok r =>
      cases r with
      | none => exact .inl rfl
      | some r =>
        obtain ⟨l', x⟩ := r
        obtain ⟨_, rfl, k, _, rfl⟩ := local_kb hl
        exact .inr ⟨_, H, rfl, .nil, quiet _ rfl rfl (fun hr => ⟨hr, rfl⟩) (fun ho => ⟨ho, rfl⟩) rfl⟩
  | done =>
    simp only [Complete.step]
    split
    · simp only [Local.step]
      by_cases hb : s.loc.busy = true
      · rw [if_pos hb]
        cases hk : Keyboard.step p manual s.loc.kb .activate with
        | none => exact .inl rfl
        | some k => exact .inr ⟨_, H, rfl, .nil, quiet _ rfl rfl (fun hr => ⟨hr, rfl⟩) (fun ho => ⟨ho, rfl⟩) rfl⟩
      · rw [if_neg hb]; exact .inl rfl
    · exact .inl rfl
  | ret =>
    simp only [Complete.step]
    split
    · rename_i hc; exact .inr ⟨_, H, rfl, .nil, quiet _ rfl rfl (fun hr => by cases hr) (fun _ => ⟨by rw [hc.1]; simp, rfl⟩) rfl⟩
    · exact .inl rfl
  | closeServer =>
    simp only [Complete.step]
    split
    · rename_i hc; exact .inr ⟨_, H, rfl, .nil, quiet _ rfl rfl (fun hr => by cases hr) (fun _ => ⟨by rw [hc]; simp, rfl⟩) rfl⟩
    · exact .inl rfl
  | destroy =>
    simp only [Complete.step]
    split
    · rename_i hc
      cases hk : Keyboard.step p manual s.loc.kb .stop with
      | none => exact .inl rfl
      | some k => exact .inr ⟨_, H, rfl, .nil, quiet _ rfl rfl (fun hr => by cases hr) (fun _ => ⟨by rw [hc]; simp, rfl⟩) rfl⟩
    · exact .inl rfl
  | join =>
    simp only [Complete.step]
    split
    · rename_i hc; exact .inr ⟨_, H, rfl, .nil, quiet _ rfl rfl (fun hr => by cases hr) (fun _ => ⟨by rw [hc.1]; simp, rfl⟩) rfl⟩
    · exact .inl rfl
  | drop =>
    simp only [Complete.step]
    split
    · rename_i hc; exact .inr ⟨_, H, rfl, .nil, quiet _ rfl rfl (fun hr => by cases hr) (fun ho => absurd rfl ho) (by simp)⟩
    · exact .inl rfl

/-- What an execution is to the users. -/
def script (E : Env) (store : τ → List Str → τ) (stored : τ → List Str) (p : Platform) (manual : α → α) (n fuel : Nat) : List (Complete.Ev α) → Complete.St St τ α → List Cue
  | [], _ => []
  | e :: es, s =>
    match Complete.step (app E store stored false) (server n) St.stopped fuel p manual s e with
    | .error _ => cues n s e
    | .ok none => []
    | .ok (some (s', x)) => cues n s e ++ (if x = none then script E store stored p manual n fuel es s' else [])

/-- After some of it, a key is handled about which nothing is said. -/
def Obscure (E : Env) (store : τ → List Str → τ) (stored : τ → List Str) (greeting : Str) (depth : Nat) (H : Stage τ) (ms : List Cue) : Prop := ∃ a m b H', ms = a ++ m :: b ∧ Performance E store stored greeting H a H' ∧ Unclear E depth H' m

theorem cues_single {s : Complete.St St τ α} {e : Complete.Ev α} {m : Cue} (h : m ∈ cues n s e) : cues n s e = [m] := by
  unfold cues at h ⊢
  split at h
  · cases hk : s.loc.kb.posted[s.loc.handled]? with
    | none => rw [hk] at h; cases h
    | some k => rw [hk] at h; simp at h; simp [h]
  · rw [List.mem_singleton.1 h]
  · split at h
    · cases h
    · rename_i l hl
      split at h
      · cases h
      · rw [List.mem_singleton.1 h]
      · split at h
        · rename_i hc; rw [if_pos hc, List.mem_singleton.1 h]
        · rename_i hc; rw [if_neg hc, List.mem_singleton.1 h]
      · rw [List.mem_singleton.1 h]
  · cases h

theorem performance_append {greeting : Str} {H H1 H2 : Stage τ} {a b : List Cue} (h : Performance E store stored greeting H a H1) (h' : Performance E store stored greeting H1 b H2) : Performance E store stored greeting H (a ++ b) H2 := by
  induction h with
  | nil => exact h'
  | cons hm _ ih => exact .cons hm (ih h')

theorem run_fits (hq : Quiet E) (fuel : Nat) : ∀ (es : List (Complete.Ev α)) {H : Stage τ} {s : Complete.St St τ α}, Fits H s → (∀ e ∈ es, Proper e) →
    ¬ Obscure E store stored Telnet.greeting (fuel + 2) H (script E store stored p manual n (fuel + 2) es s) →
    Complete.run (app E store stored false) (server n) St.stopped (fuel + 2) p manual es s = .ok none ∨
    ∃ s' H', Complete.run (app E store stored false) (server n) St.stopped (fuel + 2) p manual es s = .ok (some (s', none)) ∧ Performance E store stored Telnet.greeting H (script E store stored p manual n (fuel + 2) es s) H' ∧ Fits H' s'
  | [], H, s, h, _, _ => .inr ⟨s, H, rfl, .nil, h⟩
  | e :: es, H, s, h, he, hw => by
    cases hst : Complete.step (app E store stored false) (server n) St.stopped (fuel + 2) p manual s e with
    | ok r =>
      cases r with
      | none => exact .inl (by simp only [Complete.run, hst])
      | some r =>
        obtain ⟨s1, x⟩ := r
        have hsc : script E store stored p manual n (fuel + 2) (e :: es) s = cues n s e ++ (if x = none then script E store stored p manual n (fuel + 2) es s1 else []) := by simp only [script, hst]
        rw [hsc] at hw
        rcases step_fits (store := store) E p manual n hq fuel h e (he e (by simp)) (fun m hm hu => hw ⟨[], m, _, H, by rw [cues_single n hm]; rfl, .nil, hu⟩) with h1 | ⟨s', H', e1, e2, e3⟩
        · rw [hst] at h1; cases h1
        · rw [hst] at e1
          cases e1
          simp only [if_true] at hw hsc
          rcases run_fits hq fuel es e3 (fun e hm => he e (by simp [hm])) (by
            rintro ⟨a, m, b, H2, k1, k2, k3⟩
            exact hw ⟨cues n s e ++ a, m, b, H2, by rw [k1, List.append_assoc], performance_append E e2 k2, k3⟩) with h2 | ⟨s2, H2, f1, f2, f3⟩
          · exact .inl (by simp only [Complete.run, hst]; exact h2)
          · exact .inr ⟨s2, H2, by simp only [Complete.run, hst]; exact f1, by rw [hsc]; exact performance_append E e2 f2, f3⟩
    | error f =>
      have hsc : script E store stored p manual n (fuel + 2) (e :: es) s = cues n s e := by simp only [script, hst]
      rw [hsc] at hw
      rcases step_fits (store := store) E p manual n hq fuel h e (he e (by simp)) (fun m hm hu => hw ⟨[], m, [], H, by rw [cues_single n hm]; rfl, .nil, hu⟩) with h1 | ⟨s', H', e1, _⟩
      · rw [hst] at h1; cases h1
      · rw [hst] at e1; cases e1

/-! ### The beginning -/

theorem local_starts (m : Nat) (tty : Bool) (st : τ) (tt : α) : ∃ l : Local.St St τ α, Local.create (app E store stored false) manual tt m (cli st) ⟨⟨false, tty, false⟩, []⟩ = .ok (l, none) ∧
    Fits (Stage.start stored m tty st) (Complete.start l) := by
  have hs := at_start (store := store) (stored := stored) (telnet := false) E m tty st
  obtain ⟨w, p1, p2, p3⟩ := prompt_says hs
  obtain ⟨q1, q2⟩ := prompt_quiet p1
  have hcr : Local.create (app E store stored false) manual tt m (cli st) ⟨⟨false, tty, false⟩, []⟩ = (match prompt (session E store stored false m tty st) with
      | .error f => .error f
      | .ok w => .ok (⟨Keyboard.init manual tt, ⟨w, ⟨[], 0⟩, true⟩, 0, false, true⟩, none)) := rfl
  rw [p1] at hcr
  refine ⟨_, hcr, ?_⟩
  have hm := at_common p2 (Stage.start stored m tty st).hall.chairs
  refine ⟨⟨hm.tree, hm.others, hm.color15, hm.color16, hm.app, hm.color, q2⟩, ?_, fun _ => rfl, fun _ j l hl => (by cases hl), fun j _ => ?_⟩
  · have := at_private p2
    rw [p3] at this
    have hst : settled w.hist = w.hist := looking_none p2.kept.mode
    refine ⟨?_, p2.hist, p2.kept.mode, rfl, rfl⟩
    show Private _ (Sessions.owned { w with hist := settled w.hist })
    rw [hst]; exact this
  · simp [Stage.start, Hall.put, Hall.init]

/-! ### C132 -/

/-- What can be seen of the sessions. -/
structure Looks2 (H : Stage τ) (s : Complete.St St τ α) : Prop where
  /-- the program has been stopped, or not; nothing undefined has happened -/
  app : s.serv.sh.app = ⟨H.hall.over, false⟩
  /-- the history storage -/
  storage : s.serv.sh.storage = H.hall.storage
  /-- the screen and the current line of the local user -/
  desk : match H.hall.chairs 0 with
    | .empty => False
    | .guest g => s.loc.proc.w.io.out = g.screen ∧ s.loc.proc.w.exit = false ∧ s.loc.proc.term = ⟨(H.typing 0).text, (H.typing 0).line.before.length⟩
    | .leaving t => s.loc.proc.w.io.out = t ∧ s.loc.proc.w.exit = true
  /-- what has been written to the clients (until the program is over): no session, a connected client, or one that has been disconnected -/
  clients : s.phase ≠ .over → ∀ j, match H.hall.chairs (j + 1) with
    | .empty => ∀ l, s.serv.conns[j]? = some l → Net.owned l.op l.queue = false
    | .guest g => ∃ l, s.serv.conns[j]? = some l ∧ Net.owned l.op l.queue = true ∧ l.tel.proc.w.io.out = g.screen ∧ l.tel.proc.w.app.2 = true ∧ l.tel.proc.term = ⟨(H.typing (j + 1)).text, (H.typing (j + 1)).line.before.length⟩
    | .leaving t => ∃ l, s.serv.conns[j]? = some l ∧ Net.owned l.op l.queue = true ∧ l.tel.proc.w.io.out = t ∧ l.tel.proc.w.app.2 = false

theorem fits_looks {H : Stage τ} {s : Complete.St St τ α} (h : Fits H s) : Looks2 H s := by
  refine ⟨h.common.app, h.common.storage, ?_, fun ho j => ?_⟩
  · have := h.loc
    cases hc : H.hall.chairs 0 with
    | empty => rw [hc] at this; exact this
    | guest g => rw [hc] at this; exact ⟨this.1.out, this.1.exit, this.2.2.2.1⟩
    | leaving t => rw [hc] at this; exact this
  · cases hl : s.serv.conns[j]? with
    | none =>
      rw [h.rest j (List.getElem?_eq_none_iff.1 hl)]
      exact fun l hl' => by cases hl'
    | some l =>
      have := (h.nets ho j l hl).1
      cases hc : H.hall.chairs (j + 1) with
      | empty => rw [hc] at this; intro l' hl'; cases hl'; exact this
      | guest g => rw [hc] at this; exact ⟨l, rfl, this.1, this.2.1.1.out, this.2.2, this.2.1.2.2.2.1⟩
      | leaving t => rw [hc] at this; exact ⟨l, rfl, this.1, this.2.1.1, this.2.2⟩

theorem greeting_welcome : Telnet.greeting = welcome := by decide

/-- **C132** (partial) The program `complete`, with a local user and any number of clients, whose keys, packets, connections and disconnections are interleaved in any way: nothing is undefined, no exception leaves the scheduler, and what is written to each
    session is what the table of commands says: all keys edit the line they are typed in, in the colours that have been chosen by whomever; a line is answered when Enter is handled, all others hear what is said to all and nothing else, and the clients and the
    local user come and go.
    Missing: lines for which the behaviour is undefined (`C132_refuted`), which includes lines with negative characters, and lines that refer to themselves in the history (`C133_planted_refuted`) or through more lines than the stack has room for;
    keys that are handled after the session of a client has ended (`C132_ghost_refuted`); clients that are gone when their session ends (`C132_gone_refuted`);
    the arrow up if there is no room in the history (`C132_room_refuted`); Tab if the line is too long for the stack or has negative characters in it. -/
theorem C132_concert_partial (hq : Quiet E) (fuel m : Nat) (tty : Bool) (st : τ) (tt : α) (l : Local.St St τ α) (es : List (Complete.Ev α)) (h0 : Local.create (app E store stored false) manual tt m (cli st) ⟨⟨false, tty, false⟩, []⟩ = .ok (l, none))
    (he : ∀ e ∈ es, Proper e)
    (hw : ¬ Obscure E store stored welcome (fuel + 2) (Stage.start stored m tty st) (script E store stored p manual n (fuel + 2) es (Complete.start l))) :
    Complete.run (app E store stored false) (server n) St.stopped (fuel + 2) p manual es (Complete.start l) = .ok none ∨
    ∃ s H, Complete.run (app E store stored false) (server n) St.stopped (fuel + 2) p manual es (Complete.start l) = .ok (some (s, none)) ∧
      Performance E store stored welcome (Stage.start stored m tty st) (script E store stored p manual n (fuel + 2) es (Complete.start l)) H ∧ Looks2 H s := by
  rw [← greeting_welcome] at hw ⊢
  obtain ⟨l', k1, k2⟩ := local_starts (store := store) (stored := stored) E manual m tty st tt
  rw [h0] at k1
  cases k1
  rcases run_fits E p manual n hq fuel es k2 he hw with h1 | ⟨s, H, e1, e2, e3⟩
  · exact .inl h1
  · exact .inr ⟨s, H, e1, e2, fits_looks e3⟩

/-! ### What is typed -/

/-- The keys of a session. -/
def keysAt (i : Nat) (ms : List Cue) : List Key := ms.filterMap fun | .key j k => if j = i then some k else none | _ => none

theorem keysAt_append (i : Nat) (a b : List Cue) : keysAt i (a ++ b) = keysAt i a ++ keysAt i b := List.filterMap_append

theorem cues_local (s : Complete.St St τ α) (e : Complete.Ev α) : keysAt 0 (cues n s e) = (match e with | .task => s.loc.kb.posted[s.loc.handled]?.toList | _ => []) := by
  cases e with
  | task =>
    simp only [cues]
    cases s.loc.kb.posted[s.loc.handled]? <;> simp [keysAt]
  | net ne =>
    cases ne with
    | conn j ev =>
      cases ev with
      | exec i a =>
        simp only [cues]
        split
        · rfl
        · split
          · rfl
          · simp [keysAt]
          · split <;> simp [keysAt]
          · simp [keysAt]
      | _ => rfl
    | _ => rfl
  | _ => rfl

theorem cues_client (j : Nat) (s : Complete.St St τ α) (e : Complete.Ev α) : keysAt (j + 1) (cues n s e) = (Props.nowIn s j e).keys := by
  cases e with
  | task =>
    simp only [cues]
    cases s.loc.kb.posted[s.loc.handled]? <;> simp [keysAt, Props.nowIn, Props.Seen.none]
  | net ne =>
    cases ne with
    | conn i ev =>
      simp only [Props.nowIn, Props.nowTo]
      cases ev with
      | exec a b =>
        simp only [cues]
        split
        · rename_i hl
          split
          · rename_i hij; subst hij; rw [hl]; rfl
          · rfl
        · rename_i l hl
          split
          · rename_i hq
            split
            · rename_i hij; subst hij; rw [hl]; simp [Props.keyAt, hq, keysAt]
            · rfl
          · rename_i k hq
            split
            · rename_i hij; subst hij; rw [hl]; simp [Props.keyAt, hq, keysAt]
            · rename_i hij; simp [keysAt, Props.Seen.none, hij]
          · rename_i d hq
            split
            · split
              · rename_i hij; subst hij; rw [hl]; simp [Props.keyAt, hq, keysAt]
              · simp [keysAt, Props.Seen.none]
            · split
              · rename_i hij; subst hij; rw [hl]; simp [Props.keyAt, hq, keysAt]
              · simp [keysAt, Props.Seen.none]
          · rename_i hq
            split
            · rename_i hij; subst hij; rw [hl]; simp [Props.keyAt, hq, keysAt]
            · simp [keysAt, Props.Seen.none]
      | _ =>
        simp only [cues]
        split
        · split <;> simp [keysAt, Props.keyAt, Props.Seen.none]
        · rfl
    | _ => rfl
  | _ => rfl

theorem script_local (fuel : Nat) : ∀ (es : List (Complete.Ev α)) {s s' : Complete.St St τ α} {x : Option Exn}, Complete.run (app E store stored false) (server n) St.stopped fuel p manual es s = .ok (some (s', x)) →
    keysAt 0 (script E store stored p manual n fuel es s) = Props.localKeys (app E store stored false) (server n) St.stopped fuel p manual es s
  | [], _, _, _, _ => rfl
  | e :: es, s, s', x, h => by
    simp only [Complete.run] at h
    cases hst : Complete.step (app E store stored false) (server n) St.stopped fuel p manual s e with
    | error f => rw [hst] at h; cases h
    | ok r =>
      cases r with
      | none => rw [hst] at h; cases h
      | some r =>
        obtain ⟨s1, y⟩ := r
        rw [hst] at h
        simp only [script, Props.localKeys, hst, keysAt_append, cues_local]
        cases y with
        | some y => rfl
        | none =>
          simp only [if_true]
          rw [script_local fuel es h]
          rfl

theorem script_client (fuel j : Nat) : ∀ (es : List (Complete.Ev α)) {s s' : Complete.St St τ α} {x : Option Exn}, Complete.run (app E store stored false) (server n) St.stopped fuel p manual es s = .ok (some (s', x)) →
    keysAt (j + 1) (script E store stored p manual n fuel es s) = (Props.tale (app E store stored false) (server n) St.stopped fuel p manual j es s).keys
  | [], _, _, _, _ => rfl
  | e :: es, s, s', x, h => by
    simp only [Complete.run] at h
    cases hst : Complete.step (app E store stored false) (server n) St.stopped fuel p manual s e with
    | error f => rw [hst] at h; cases h
    | ok r =>
      cases r with
      | none => rw [hst] at h; cases h
      | some r =>
        obtain ⟨s1, y⟩ := r
        rw [hst] at h
        simp only [script, Props.tale, hst, keysAt_append, cues_client, Props.Seen.add]
        cases y with
        | some y => simp [keysAt, Props.Seen.none]
        | none =>
          simp only [if_true]
          rw [script_client fuel j es h]

/-- **C132** The keys in the statement above are the ones that are typed: those of the local user are the first ones of the keys that the bytes typed on the keyboard say, in order; those of a client, followed by the ones in the queue, are the keys that the data
    decoded for it say, and these data, followed by the ones in the queue, are the data it has sent, as long as its connection is open. -/
theorem C132_keys (fuel m : Nat) (tt : α) (w : World St τ) (io : Io) (l : Local.St St τ α) (es : List (Complete.Ev α)) (h0 : Local.create (app E store stored false) manual tt m w io = .ok (l, none)) (he : ∀ e ∈ es, Proper e) (s : Complete.St St τ α)
    (h : Complete.run (app E store stored false) (server n) St.stopped fuel p manual es (Complete.start l) = .ok (some (s, none))) :
    ((∀ e ∈ es, Props.Peaceful e) → keysAt 0 (script E store stored p manual n fuel es (Complete.start l)) <+: (Keyboard.decode p .first (Props.Complete.typed es)).2) ∧
    (s.phase ≠ .over → ∀ j c, s.serv.conns[j]? = some c → ∃ data, keysAt (j + 1) (script E store stored p manual n fuel es (Complete.start l)) ++ Props.keysIn c.queue = Props.typedBy data ∧
      (c.tel.proc.w.app.2 = true → data ++ Props.readsIn c.queue = Props.sentTo j es)) := by
  refine ⟨fun hp => ?_, fun ho j c hc => ?_⟩
  · rw [script_local E p manual n fuel es h]
    exact Props.C101_local_keys _ _ _ _ _ _ tt m w io l es s none h0 hp h
  · rw [script_client E p manual n fuel j es h]
    have h1 : Props.OneByOne es := fun e hm i x hx => by
      cases List.mem_singleton.1 hx
      exact (he _ hm).1
    obtain ⟨k1, k2⟩ := Props.C101_served (app E store stored false) (server n) St.stopped fuel p manual l es h1 s none h ho j c hc
    exact ⟨_, k1, k2 rfl⟩

end

/-! ### Examples -/

/-- The server sees that a client connects. -/
def joins : List (Complete.Ev Bool) := [.net (.client false)]

/-- A client sends a packet, and what it contains is handled: the packet is decoded, then there is a key after the other. -/
def sends (j : Nat) (d : Str) (n : Nat) : List (Complete.Ev Bool) := .net (.conn j (.arrive d)) :: List.replicate n (.net (.conn j (.exec 0 true)))

/-- The local user types, and the keys are handled. -/
def types (d : Str) : List (Complete.Ev Bool) := d.flatMap Props.strikes ++ d.map fun _ => .task

/-- The local user presses a key that the terminal sends as several bytes, and it is handled. -/
def stroke (d : Str) : List (Complete.Ev Bool) := d.map (fun c => .kb (.arrive c)) ++ [.kb .check, .kb .ready] ++ d.map (fun _ => .kb .getc) ++ [.kb .post, .task]

/-- What can be seen at the end: what has been written to the local session, its current line and whether it has ended; for each client what has been written, the current line and whether the session exists. -/
structure Scene where
  app : Bool × Bool
  desk : Str × Str × Bool
  clients : List (Str × Str × Bool)
  deriving DecidableEq, Repr

def concertOf (room : Nat) (es : List (Complete.Ev Bool)) : Option Scene :=
  match Local.create (app one (fun _ _ => ()) (fun _ => []) false) (fun _ : Bool => false) true 9 (cli ()) ⟨⟨false, false, false⟩, []⟩ with
  | .ok (l, none) =>
    match Complete.run (app one (fun _ _ => ()) (fun _ => []) false) (server room) St.stopped 99 Props.plat (fun _ => false) es (Complete.start l) with
    | .ok (some (s, none)) => some ⟨(s.serv.sh.app.stopped, s.serv.sh.app.ub), (s.loc.proc.w.io.out, s.loc.proc.term.line, s.loc.proc.w.exit), s.serv.conns.map fun c => (c.tel.proc.w.io.out, c.tel.proc.term.line, Net.owned c.op c.queue)⟩
    | _ => none
  | _ => none

def concert (es : List (Complete.Ev Bool)) : Option Scene := concertOf 9 es

/-- The bytes of the telnet negotiations that a client receives at the beginning. -/
def hi : Str := [255, 253, 34, 255, 250, 34, 1, 0, 255, 240, 255, 251, 1]

/-- The local user has typed `co` when a client switches the colours on: nothing changes on their screen. The client says something to all, and the local user hears it. What they type now is in colour, and the prompt that follows is green; but there is no
    command `color` any more. -/
example : concert (joins ++ types bs!"co" ++ sends 0 bs!"color\r\n" 7) = some ⟨(false, false), (bs!"cli> co", bs!"co", false), [(hi ++ bs!"cli> color\r\nColors ON\n\x1b[32m\x1b[1mcli\x1b[0m> ", [], true)]⟩ := by decide +kernel

example : (concert (joins ++ types bs!"co" ++ sends 0 bs!"color\r\nhello_everysession\r\n" 26 ++ types bs!"lor\n")).map (·.desk) =
    some (bs!"cli> coHello, everybody\n\x1b[97ml\x1b[0m\x1b[97mo\x1b[0m\x1b[97mr\x1b[0m\r\nUnknown command or incorrect parameters: color.\n\x1b[32m\x1b[1mcli\x1b[0m> ", [], false) := by decide +kernel

/-- A client enters `exit`, and its session is destroyed when the server has noticed. -/
example : concert (joins ++ sends 0 bs!"exit\r\n" 7) = some ⟨(false, false), (bs!"cli> ", [], false), [(hi ++ bs!"cli> exit\r\nTerminating this session...\nGoodbye and thanks for all the fish.\n", [], false)]⟩ := by decide +kernel

/-- A client enters `hello`, types `he`, asks for completions, corrects this, clears the screen, and ends the session by Ctrl-D. -/
example : (concert (joins ++ sends 0 bs!"hello\r\n" 7 ++ sends 0 bs!"he\t" 4 ++ sends 0 [8, 127] 3 ++ sends 0 [0x1b, 0x5b, 0x44, 12] 3)).map (·.clients) =
    some [(hi ++ bs!"cli> hello\r\nHello, world\ncli> he\x08\x08hel\x08 \x08\x08 \x08\x08\x1b[H\x1b[Jcli> h", bs!"h", true)] := by decide +kernel

example : concert (joins ++ types bs!"co" ++ sends 0 [104, 4] 4) = some ⟨(false, false), (bs!"cli> co", bs!"co", false), [(hi ++ bs!"cli> hTerminating this session...\nGoodbye and thanks for all the fish.\n", bs!"h", false)]⟩ := by decide +kernel

/-- A client switches the colours on; the local user completes a command, presses the arrow up, and ends the program by Ctrl-D. -/
example : concert (joins ++ sends 0 bs!"color\r\n" 7 ++ types bs!"anx" ++ types [127] ++ types bs!"\tx" ++ stroke bs!"\x1b[A" ++ types [4]) = some ⟨(true, false),
    (bs!"cli> \x1b[97ma\x1b[0m\x1b[97mn\x1b[0m\x1b[97mx\x1b[0m\x08 \x08\x1b[97m\x08\x08answer \x1b[0m\x1b[97mx\x1b[0m\x1b[97m\x08\x08\x08\x08\x08\x08\x08\x08answer x\x1b[0mClosing App...\nGoodbye and thanks for all the fish.\n", bs!"answer x", true),
    [(hi ++ bs!"cli> color\r\nColors ON\n\x1b[32m\x1b[1mcli\x1b[0m> ", [], true)]⟩ := by decide +kernel

/-- What was said to all can be said again, by the arrow up and Enter. -/
example : (concert (joins ++ sends 0 bs!"hello_everysession\r\n" 20 ++ sends 0 bs!"\x1b[A\r\n" 3)).map (·.desk) = some (bs!"cli> Hello, everybody\nHello, everybody\n", [], false) := by decide +kernel

/-- **C132** (refuted) A client makes the behaviour of the program undefined, for all: by a sum that is too large, or by `! 0`. -/
theorem C132_refuted : (concert (joins ++ sends 0 bs!"add 2147483647 1\r\n" 18)).map (·.app) = some (false, true) ∧ concert (joins ++ sends 0 bs!"! 0\r\n" 4) ≠ none ∧ concert (joins ++ sends 0 bs!"! 0\r\n" 5) = none :=
  ⟨by decide +kernel, by decide +kernel, by decide +kernel⟩

/-- **C132** (refuted) What a client sends behind `exit` is executed after its session has ended, and everybody hears it. -/
theorem C132_ghost_refuted : concert (joins ++ sends 0 bs!"exit\r\nhello_everysession\r\n" 25) = some ⟨(false, false), (bs!"cli> Hello, everybody\n", [], false),
    [(hi ++ bs!"cli> exit\r\nTerminating this session...\nGoodbye and thanks for all the fish.\nhello_everysession\r\nHello, everybody\n", [], true)]⟩ := by decide +kernel

/-- **C132** (refuted) `exit` does not end the session of a client that has just gone: the exception of `shutdown` is reported, and there is a prompt again. -/
theorem C132_gone_refuted : concert (joins ++ sends 0 bs!"exit\r\n" 5 ++ [.net (.conn 0 (.exec 0 false))]) = some ⟨(false, false), (bs!"cli> ", [], false),
    [(hi ++ bs!"cli> exit\r\nTerminating this session...\nException caught in CLI handler: shutdown: Transport endpoint is not connected while handling command: exit.\ncli> ", [], true)]⟩ := by decide +kernel

/-- **C132** (refuted) If the server keeps no lines in the histories of its clients, the behaviour is undefined when one of them presses the arrow up. -/
theorem C132_room_refuted : concertOf 0 (joins ++ sends 0 bs!"x\x1b[A" 2) ≠ none ∧ concertOf 0 (joins ++ sends 0 bs!"x\x1b[A" 3) = none := ⟨by decide +kernel, by decide +kernel⟩

theorem obscure_cons {E : Env} {store : τ → List Str → τ} {stored : τ → List Str} {greeting : Str} {depth : Nat} {H : Stage τ} {m : Cue} {ms : List Cue} (h1 : ¬ Unclear E depth H m) (h2 : ∀ H', Plays E store stored greeting H m H' → ¬ Obscure E store stored greeting depth H' ms) :
    ¬ Obscure E store stored greeting depth H (m :: ms) := by
  rintro ⟨a, x, b, H', e, k1, k2⟩
  cases a with
  | nil => cases e; cases k1; exact h1 k2
  | cons y a =>
    cases e
    cases k1 with
    | cons g1 g2 => exact h2 _ g1 ⟨a, x, b, H', rfl, g2, k2⟩

theorem obscure_nil {E : Env} {store : τ → List Str → τ} {stored : τ → List Str} {greeting : Str} {depth : Nat} {H : Stage τ} : ¬ Obscure E store stored greeting depth H [] := by rintro ⟨a, x, b, H', e, _⟩; simp at e

/-- Two sessions in the main menu, with room in their histories, and what has been typed in the second. -/
def Both (H : Stage Unit) (t : Str) : Prop := H.typing 1 = ⟨⟨t.reverse, []⟩, none⟩ ∧ (H.typing 0).back = none ∧ ∀ i, i < 2 → ∃ g, H.hall.chairs i = .guest g ∧ g.place = .root ∧ g.book.room = 9

theorem both_char {H : Stage Unit} {t : Str} {i : Nat} {c : Byte} {ms : List Cue} (h : Both H t) (hi : i < 2) (hc : c ≠ 9)
    (h2 : ∀ H', Both H' (if i = 1 then t ++ [c] else t) → ¬ Obscure one (fun _ _ => ()) (fun _ => []) welcome 99 H' ms) : ¬ Obscure one (fun _ _ => ()) (fun _ => []) welcome 99 H (.key i (.ascii c) :: ms) := by
  obtain ⟨g, h3, h4, h5⟩ := h.2.2 i hi
  refine obscure_cons ?_ fun H' hp => h2 H' ?_
  · rintro (k | ⟨_, _, k, _⟩)
    · exact k g h3
    · exact hc k
  · cases hp with
    | press k1 k2 k3 =>
      rw [h3] at k2
      cases k2
      obtain ⟨z, b, s', hz⟩ : ∃ z b s', H.desk i g = ⟨s', z, b⟩ := ⟨_, _, _, rfl⟩
      have e1 : z = (H.typing i).line := by have := congrArg Desk.line hz; exact this.symm
      have e2 : b = (H.typing i).back := by have := congrArg Desk.back hz; exact this.symm
      have e3 : s' = H.hall.seat g := by have := congrArg Desk.seat hz; exact this.symm
      rw [hz] at k3
      cases k3 with
      | first k => rcases k with k | k <;> cases k
      | last k => rcases k with k | k <;> cases k
      | char _ =>
        refine ⟨?_, ?_, fun j hj => ?_⟩
        · simp only [Stage.write]
          by_cases hi1 : i = 1
          · subst hi1; rw [if_pos rfl, if_pos rfl, e1, e2, h.1]; simp
          · rw [if_neg (by omega), if_neg hi1]; exact h.1
        · simp only [Stage.write]
          by_cases hi0 : 0 = i
          · rw [if_pos hi0, e2, ← hi0]; exact h.2.1
          · rw [if_neg hi0]; exact h.2.1
        · simp only [Hall.put]
          by_cases hji : j = i
          · exact ⟨_, by rw [if_pos hji], by rw [e3]; exact h4, by rw [e3]; exact h5⟩
          · rw [if_neg hji]; exact h.2.2 j hj
      | tabNone _ => exact absurd rfl hc
      | tabOne _ => exact absurd rfl hc
      | tabMore _ _ _ => exact absurd rfl hc
      | tabList _ _ _ => exact absurd rfl hc

theorem not_pressed (d : Desk) {d' : Desk} {t : Str} : ¬ Pressed d .ret d' t := by
  generalize hk : Key.ret = k
  intro h
  cases h with
  | first h => rcases h with h | h <;> rw [← hk] at h <;> cases h
  | last h => rcases h with h | h <;> rw [← hk] at h <;> cases h
  | _ => cases hk

/-- The events of the example below. -/
def evening : List (Complete.Ev Bool) := joins ++ types bs!"co" ++ sends 0 bs!"hello\r\n" 7 ++ stroke bs!"\x1b[A"

/-- The hypotheses of the theorems are satisfiable: the local user has begun to type, and a client enters `hello`; then the local user presses the arrow up. -/
example : ∃ l : Local.St St Unit Bool, Local.create (app one (fun _ _ => ()) (fun _ => []) false) (fun _ : Bool => false) true 9 (cli ()) ⟨⟨false, false, false⟩, []⟩ = .ok (l, none) ∧ Quiet one ∧ (∀ e ∈ evening, Proper e ∧ Props.Peaceful e) ∧
    script one (fun _ _ => ()) (fun _ => []) Props.plat (fun _ => false) 9 99 evening (Complete.start l) = [.comes 1 9 false, .key 0 (.ascii 99), .key 0 (.ascii 111), .answers 1 [], .key 1 (.ascii 104), .key 1 (.ascii 101), .key 1 (.ascii 108), .key 1 (.ascii 108), .key 1 (.ascii 111), .key 1 .ret, .key 0 .up] ∧
    ¬ Obscure one (fun _ _ => ()) (fun _ => []) welcome 99 (Stage.start (fun _ => []) 9 false ()) (script one (fun _ _ => ()) (fun _ => []) Props.plat (fun _ => false) 9 99 evening (Complete.start l)) := by
  obtain ⟨l, hl, _⟩ := local_starts (store := fun _ _ => ()) (stored := fun _ => []) one (fun _ : Bool => false) 9 false () true
  have hsc : script one (fun _ _ => ()) (fun _ => []) Props.plat (fun _ => false) 9 99 evening (Complete.start l) = [.comes 1 9 false, .key 0 (.ascii 99), .key 0 (.ascii 111), .answers 1 [], .key 1 (.ascii 104), .key 1 (.ascii 101), .key 1 (.ascii 108), .key 1 (.ascii 108), .key 1 (.ascii 111), .key 1 .ret, .key 0 .up] := by
    have : l = ⟨Keyboard.init (fun _ => false) true, ⟨(session one (fun _ _ => ()) (fun _ => []) false 9 false () |> prompt |> fun | .ok w => w | .error _ => session one (fun _ _ => ()) (fun _ => []) false 9 false ()), ⟨[], 0⟩, true⟩, 0, false, true⟩ := by
      cases hl; rfl
    subst this
    decide +kernel
  have hline : Lex.Line bs!"hello" [bs!"hello"] := (split_iff _ _).1 rfl
  have hd : ∀ s : Seat, Does one s .root [bs!"hello"] (.says bs!"Hello, world\n") := fun s => .here (does := plain (.says bs!"Hello, world\n")) (by simp [rows]) ⟨rfl, rfl⟩
  have hn : ¬ Bang bs!"hello" := by
    rintro ⟨n, a, h, _⟩
    exact absurd (congrArg List.head? (line_same hline h)) (by simp)
  have hf : ∀ s : Seat, s.place = .root → ¬ Fails one s bs!"hello" := by
    intro s hs h
    cases h with
    | sum h => exact not_over hline (show Does one (s.recorded _) (s.recorded _).place _ _ by rw [show (s.recorded _).place = .root from hs]; exact hd _) (by simp) h
    | again h => exact hn ⟨_, h⟩
    | empty h => exact hn h
  refine ⟨l, hl, ?_, ?_, hsc, ?_⟩
  · exact quiet_one
  · intro e he
    simp only [evening, joins, types, sends, stroke, Props.strikes, List.mem_append, List.mem_cons, List.mem_map, List.mem_flatMap, List.mem_replicate, List.not_mem_nil, or_false] at he
    rcases he with ((rfl | ⟨a, _, rfl | rfl | rfl | rfl | rfl⟩ | ⟨a, _, rfl⟩) | rfl | ⟨_, rfl⟩) | (((⟨a, _, rfl⟩ | rfl | rfl) | ⟨a, _, rfl⟩) | rfl | rfl) <;> simp [Proper, Reached, OneThread, Props.Peaceful]
  · rw [hsc]
    refine obscure_cons (fun h => h) fun H1 k1 => ?_
    have hb : Both H1 [] := by
      cases k1 with
      | comes a1 a2 a3 =>
        subst a3
        refine ⟨by simp [Stage.write, Draft.none], by simp [Stage.write, Stage.start, Draft.none], fun i hi => ?_⟩
        simp only [Hall.put, Stage.start, Hall.init]
        match i, hi with
        | 0, _ => exact ⟨_, rfl, rfl, rfl⟩
        | 1, _ => exact ⟨_, rfl, rfl, rfl⟩
    refine both_char hb (by decide) (by decide) fun H2 hb => both_char hb (by decide) (by decide) fun H3 hb => obscure_cons (fun h => h) fun H4 k4 => ?_
    have hb : Both H4 [] := by
      cases k4 with
      | answers a1 a2 a3 =>
        refine ⟨hb.1, hb.2.1, fun i hi => ?_⟩
        obtain ⟨g, b1, b2⟩ := hb.2.2 i hi
        simp only [Hall.put]
        by_cases h1 : i = 1
        · subst h1; rw [a2] at b1; cases b1; exact ⟨_, if_pos rfl, b2⟩
        · rw [if_neg h1]; exact ⟨g, b1, b2⟩
    refine both_char hb (by decide) (by decide) fun _ hb => both_char hb (by decide) (by decide) fun _ hb => both_char hb (by decide) (by decide) fun _ hb => both_char hb (by decide) (by decide) fun _ hb => both_char hb (by decide) (by decide) fun H5 hb => obscure_cons ?_ fun H6 k6 => obscure_cons ?_ fun _ _ => obscure_nil
    · obtain ⟨g, b1, b2, _⟩ := hb.2.2 1 (by decide)
      rintro (k | ⟨g', k, k'⟩)
      · exact k g b1
      · rw [b1] at k; cases k
        have : (H5.desk 1 g).text = bs!"hello" := by simp only [Stage.desk, Desk.text]; rw [hb.1]; rfl
        simp only [Unsaid, this] at k'
        exact k'.elim (hf _ b2) fun k => k (.plain (by unfold Readable; decide) hn)
    · obtain ⟨g, b1, _, b3⟩ := hb.2.2 0 (by decide)
      have hr : (∃ g, H6.hall.chairs 0 = .guest g ∧ g.book.room = 9) ∧ (H6.typing 0).back = none := by
        cases k6 with
        | press _ _ k => exact absurd k (not_pressed _)
        | @answer _ _ _ _ tx _ _ _ _ _ _ =>
          refine ⟨⟨{ g with screen := g.screen ++ tx }, ?_, b3⟩, hb.2.1⟩
          simp only [b1]; exact (if_neg (show ¬ (0 : Nat) = 1 by decide)).trans rfl
        | quits _ _ _ => exact ⟨⟨g, by simpa [Hall.put] using b1, b3⟩, hb.2.1⟩
      obtain ⟨⟨g, r1, r2⟩, r3⟩ := hr
      rintro (k | ⟨g', k, k'⟩)
      · exact k g r1
      · rw [r1] at k; cases k
        exact absurd (r2.symm.trans k') (by decide)

/-! ### Lines that refer to lines that refer to lines -/

theorem recalls_two : Recalls bs!"! 1" 1 := ⟨bs!"1", (split_iff _ _).1 rfl, ⟨bs!"1", .inl rfl, ⟨by decide, by unfold Number.Digit; decide⟩, by decide⟩, by decide⟩

/-- A session with these lines in its history, in which so many lines have been entered. -/
def among (l : List Str) (m : Nat) : Seat := ⟨.root, false, false, false, ⟨9, 0, l, m⟩⟩

/-- `! 1` is `! 0`, which is `hello`. -/
example : Within one 2 (among [bs!"hello", bs!"! 0", bs!"foo"] 0) bs!"! 1" := by
  have hline : Lex.Line bs!"hello" [bs!"hello"] := (split_iff _ _).1 rfl
  have hn : ¬ Bang bs!"hello" := by
    rintro ⟨n, a, h, _⟩
    exact absurd (congrArg List.head? (line_same hline h)) (by simp)
  refine .again (by unfold Readable; decide) recalls_two fun c hc => ?_
  have : c = bs!"! 0" := by
    rw [show ((among [bs!"hello", bs!"! 0", bs!"foo"] 0).skipped bs!"! 1").book.listing = [(0, bs!"hello"), (1, bs!"! 0"), (2, bs!"foo")] by decide] at hc
    simpa using hc
  subst this
  refine .again (by unfold Readable; decide) recalls_one fun c hc => ?_
  have : c = bs!"hello" := by
    rw [show (((among [bs!"hello", bs!"! 0", bs!"foo"] 0).skipped bs!"! 1").skipped bs!"! 0").book.listing = [(0, bs!"hello"), (1, bs!"! 0"), (2, bs!"foo")] by decide] at hc
    simpa using hc
  subst this
  exact .plain (by unfold Readable; decide) hn

/-- `! 0` is `! 0`: this never ends, however deep the stack is. -/
example (k : Nat) : ¬ Within one k (among [bs!"! 0", bs!"foo"] 0) bs!"! 0" := by
  have gen : ∀ k m, ¬ Within one k (among [bs!"! 0", bs!"foo"] m) bs!"! 0" := by
    intro k
    induction k with
    | zero => intro m h; cases h with | plain _ h => exact h ⟨0, recalls_one⟩
    | succ k ih =>
      intro m h
      cases h with
      | plain _ h => exact h ⟨0, recalls_one⟩
      | again _ hn h =>
        cases recalls_same hn recalls_one
        rw [show (among [bs!"! 0", bs!"foo"] m).skipped bs!"! 0" = among [bs!"! 0", bs!"foo"] (m + 1) from rfl] at h
        exact ih (m + 1) (h bs!"! 0" (show (0, bs!"! 0") ∈ [(0, bs!"! 0"), (1, bs!"foo")] by simp))
  exact gen k 0

end Verif.Showcase.Ensemble
