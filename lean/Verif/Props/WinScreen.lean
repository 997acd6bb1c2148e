import Verif.Model.WinScreen
import Verif.Props.Processor

set_option linter.unusedSimpArgs false

/-!
# C130: Ctrl-L on Windows
-/

namespace Verif.WinScreen
open Spec (Screen scr Printable EditKey)
open Processor (Proc redraw)
open Terminal (Term Key)
open Props (Editing SameButEditing)
open Processor (Shows promptText TreePrintable)

variable {σ τ : Type} (A : App σ τ)

/-- What the console shows is inside it: there is nothing outside of its rows and columns. -/
def Inside (c : Console) : Prop := ∀ row col, ¬ (row < c.height ∧ col < c.width) → c.screen.cell row col = b%' '

/-- The session writes to the console, which shows the prompt and the line that is being edited, with the cursor where it belongs. -/
def Live (s : St σ τ) (c : Console) : Prop := s.con = some c ∧ s.direct = true ∧ s.q.w.io.out = [] ∧ Editing c.screen s.q

theorem index_lt {w h r c : Nat} (hr : r < h) (hc : c < w) : r * w + c < w * h := by
  have h1 : r * w + w ≤ h * w := by rw [← Nat.succ_mul]; exact Nat.mul_le_mul_right w hr
  rw [Nat.mul_comm w h]; omega

/-- The cleared console is empty. -/
theorem cleared {c : Console} (h : Inside c) (he : c.screen.esc = .normal) :
    (setCursor (fill c b%' ' (c.width * c.height)) 0 0).screen = scr (fun _ _ => b%' ') 0 0 [] 0 := by
  simp only [setCursor, fill, scr, he, List.length_nil, Nat.add_zero]
  congr 1
  funext r k
  by_cases hi : r < c.height ∧ k < c.width
  · rw [if_pos ⟨hi.2, hi.1, index_lt hi.1 hi.2⟩]; simp
  · rw [if_neg (fun hh => hi ⟨hh.2.1, hh.1⟩), h r k hi]; simp

theorem clear_only {t t' : Term} {io io' : Io} {k : Key} (h : Terminal.keypressed t io k = .ok (t', io', .clear)) : k = .clear := by
  cases k <;> simp only [Terminal.keypressed, bind, Except.bind] at h <;> first | rfl | (exfalso; revert h; repeat' split) <;> simp_all

theorem redraw_at {p p' : Proc σ τ} {line : Str} (h : redraw p line = .ok p') : ∃ io, p' = ⟨{ p.w with io := io }, ⟨line, line.length⟩, p.active⟩ ∧
    ∀ (s0 : Screen) base R, s0.run p.w.io.out = scr base R 0 [] 0 → Printable (promptText p.w) → Printable line →
      ∃ base', (∀ c, c < (promptText p.w).length → base' R c = (promptText p.w).getD c b%' ') ∧ s0.run io.out = scr base' R (promptText p.w).length line line.length := by
  unfold Processor.redraw at h
  simp only [bind, Except.bind] at h
  split at h
  · cases h
  · rename_i w1 h1
    obtain ⟨io, rfl, hio⟩ := Processor.prompt_io h1
    cases h
    refine ⟨_, rfl, ?_⟩
    intro s0 base R hs hp hpl
    obtain ⟨base', hb, hs'⟩ := hio s0 base R hs hp
    exact ⟨base', hb, Spec.setLine_display s0 base' R (promptText p.w).length (Terminal.resetCursor p.term) io [] line (by simp [Terminal.resetCursor]) (.inr (by simp)) hpl hs'⟩

theorem live_arrive {s : St σ τ} {c : Console} (hc : s.con = some c) (hd : s.direct = true) (he : Editing c.screen s.q) :
    Live (arrive s) { c with screen := c.screen.run s.q.w.io.out } ∧ SameButEditing s.q (arrive s).q ∧ (arrive s).elsewhere = s.elsewhere ∧ (arrive s).q.term = s.q.term := by
  have : arrive s = { s with con := some { c with screen := c.screen.run s.q.w.io.out }, q := { s.q with w := { s.q.w with io := { s.q.w.io with out := [] } } } } := by
    unfold arrive; rw [hc, hd]
  rw [this]
  refine ⟨⟨rfl, hd, rfl, he.cursor, he.line, he.hist, ?_⟩, ⟨_, _, rfl, rfl⟩, rfl, rfl⟩
  obtain ⟨base, R, h1, h2⟩ := he.shown
  exact ⟨base, R, h1, h2⟩

/-- **C130** Ctrl-L leaves nothing on the console but the prompt and the line, in the first row, with the cursor at the end of the line, which stays as it is. -/
theorem C130_clears_partial (fuel : Nat) (s s' : St σ τ) (c : Console) (x : Option Exn) (hl : Live s c) (hi : Inside c) (hp : Printable (promptText s.q.w))
    (h : keypressed A fuel s .clear = .ok (s', x)) :
    x = none ∧ ∃ c', s'.con = some c' ∧ c'.width = c.width ∧ c'.height = c.height ∧ Live s' c' ∧ SameButEditing s.q s'.q ∧ s'.q.term = ⟨s.q.term.line, s.q.term.line.length⟩ ∧
      (∀ r k, c'.screen.cell r k = if r = 0 then (promptText s.q.w ++ s.q.term.line).getD k b%' ' else b%' ') ∧
      c'.screen.row = 0 ∧ c'.screen.col = (promptText s.q.w ++ s.q.term.line).length := by
  obtain ⟨hc, hd, ho, he⟩ := hl
  obtain ⟨base, R, hb, hs⟩ := he.shown
  have hesc : c.screen.esc = .normal := by
    have : c.screen = scr base R (promptText s.q.w).length s.q.term.line s.q.term.pos := by rw [← hs, ho]; rfl
    rw [this]; rfl
  have ha : arrive s = { s with con := some { c with screen := c.screen.run s.q.w.io.out }, q := { s.q with w := { s.q.w with io := { s.q.w.io with out := [] } } } } := by
    unfold arrive; rw [hc, hd]
  have hrun : c.screen.run s.q.w.io.out = c.screen := by rw [ho]; rfl
  rw [hrun] at ha
  unfold keypressed at h
  simp only [Terminal.keypressed] at h
  rw [ha] at h
  simp only [clear] at h
  split at h
  · cases h
  · rename_i q hq
    obtain ⟨io, rfl, hsh⟩ := redraw_at hq
    obtain ⟨base', hb', hs'⟩ := hsh (setCursor (fill c b%' ' (c.width * c.height)) 0 0).screen (fun _ _ => b%' ') 0 (cleared hi hesc) hp he.line
    have hp' : promptText ({ s.q.w with io := { s.q.w.io with out := [] } } : World σ τ) = promptText s.q.w := rfl
    simp only [hp'] at hb' hs'
    simp only [Except.ok.injEq, Prod.mk.injEq] at h
    obtain ⟨rfl, rfl⟩ := h
    obtain ⟨g1, g2, _, g4⟩ := live_arrive (s := { s with q := ⟨{ s.q.w with io := io }, ⟨s.q.term.line, s.q.term.line.length⟩, s.q.active⟩, con := some (setCursor (fill c b%' ' (c.width * c.height)) 0 0) })
      (c := setCursor (fill c b%' ' (c.width * c.height)) 0 0) rfl hd ⟨Nat.le_refl _, he.line, he.hist, base', 0, hb', hs'⟩
    refine ⟨rfl, { setCursor (fill c b%' ' (c.width * c.height)) 0 0 with screen := _ }, g1.1, rfl, rfl, g1, Props.sameButEditing_trans ⟨_, _, rfl, rfl⟩ g2, g4, ?_⟩
    show (∀ r k, ((setCursor (fill c b%' ' (c.width * c.height)) 0 0).screen.run io.out).cell r k = _) ∧ ((setCursor (fill c b%' ' (c.width * c.height)) 0 0).screen.run io.out).row = 0 ∧
      ((setCursor (fill c b%' ' (c.width * c.height)) 0 0).screen.run io.out).col = _
    rw [hs']
    refine ⟨?_, rfl, by simp [scr]⟩
    intro r k
    simp only [scr, Nat.not_lt_zero, if_false]
    by_cases hr : r = 0
    · subst hr
      simp only [if_true]
      by_cases hk : k < (promptText s.q.w).length
      · rw [if_pos hk, hb' k hk]; simp [List.getD_eq_getElem?_getD, List.getElem?_append_left hk]
      · rw [if_neg hk]; simp [List.getD_eq_getElem?_getD, List.getElem?_append_right (Nat.le_of_not_lt hk)]
    · rw [if_neg hr, if_neg hr]

/-- **C130** While a line is edited the console shows the prompt and the line as it is, with the cursor where it belongs, whichever editing keys are pressed, Ctrl-L among them. -/
theorem C130_key_partial (fuel : Nat) (s s' : St σ τ) (c : Console) (k : Key) (x : Option Exn) (hk : EditKey k) (he : k ≠ .eof) (hl : Live s c) (hi : k = .clear → Inside c)
    (ht : TreePrintable s.q.w.tree) (hp : Printable (promptText s.q.w)) (h : keypressed A fuel s k = .ok (s', x)) :
    x = none ∧ ∃ c', c'.width = c.width ∧ c'.height = c.height ∧ Live s' c' ∧ SameButEditing s.q s'.q := by
  by_cases hkc : k = .clear
  · subst hkc
    obtain ⟨h1, c', _, h3, h4, h5, h6, _⟩ := C130_clears_partial A fuel s s' c x hl (hi rfl) hp h
    exact ⟨h1, c', h3, h4, h5, h6⟩
  · obtain ⟨hc, hd, ho, hed⟩ := hl
    unfold keypressed at h
    split at h
    · cases h
    · rename_i hh
      exact absurd (clear_only hh) hkc
    · rename_i t io sym _ hh
      split at h
      · cases h
      · rename_i q x' hq
        simp only [Except.ok.injEq, Prod.mk.injEq] at h
        obtain ⟨rfl, rfl⟩ := h
        have hkey : Processor.keypressed A fuel s.q k = .ok (q, x') := by
          unfold Processor.keypressed
          rw [hh]
          exact hq
        obtain ⟨h1, h2, h3⟩ := Props.C41_every_key A fuel c.screen s.q q k x' hk he ht hp hed hkey
        obtain ⟨g1, g2, g3, g4⟩ := live_arrive (s := { s with q := q }) hc hd h2
        exact ⟨h1, { c with screen := c.screen.run q.w.io.out }, rfl, rfl, g1, Props.sameButEditing_trans h3 g2⟩

/-- The same for any number of keys, as long as what is shown is inside the console when Ctrl-L is pressed. -/
theorem C130_session_partial (fuel : Nat) (ks : List Key) : ∀ (s s' : St σ τ) (c : Console) (x : Option Exn), (∀ k ∈ ks, EditKey k ∧ k ≠ .eof) → Live s c →
    (∀ pre s1 c1, pre ++ [.clear] <+: ks → run A fuel pre s = .ok (s1, none) → s1.con = some c1 → Inside c1) →
    TreePrintable s.q.w.tree → Printable (promptText s.q.w) → run A fuel ks s = .ok (s', x) →
    x = none ∧ ∃ c', c'.width = c.width ∧ c'.height = c.height ∧ Live s' c' ∧ SameButEditing s.q s'.q := by
  induction ks with
  | nil => intro s s' c x _ hl _ _ _ h; cases h; exact ⟨rfl, c, rfl, rfl, hl, ⟨_, _, rfl, rfl⟩⟩
  | cons k ks ih =>
    intro s s' c x hk hl hi ht hp h
    unfold run at h
    split at h
    · cases h
    · rename_i s1 e hh
      exact absurd (C130_key_partial A fuel s s1 c k _ (hk k (by simp)).1 (hk k (by simp)).2 hl
        (fun e => hi [] s c (by simp [e]) rfl hl.1) ht hp hh).1 (by simp)
    · rename_i s1 hh
      obtain ⟨_, c1, w1, w2, hl1, hs1⟩ := C130_key_partial A fuel s s1 c k _ (hk k (by simp)).1 (hk k (by simp)).2 hl
        (fun e => hi [] s c (by simp [e]) rfl hl.1) ht hp hh
      have ht1 : TreePrintable s1.q.w.tree := by obtain ⟨io, hist, e, _⟩ := hs1; rw [e]; exact ht
      obtain ⟨h1, c', w1', w2', hl', hs'⟩ := ih s1 s' c1 x (fun k' hk' => hk k' (by simp [hk'])) hl1
        (fun pre s2 c2 hpre hr hc2 => hi (k :: pre) s2 c2 (by simpa using hpre) (by simp only [run, hh, hr]) hc2)
        ht1 (by rw [Props.same_prompt hs1]; exact hp) h
      exact ⟨h1, c', w1'.trans w1, w2'.trans w2, hl', Props.sameButEditing_trans hs1 hs'⟩

/-- **C130** (refuted) If the standard output is not a console, as when it has been redirected to a file, Ctrl-L makes the library use a variable that has no value, whatever the state of the session. -/
theorem C130_redirected_refuted (fuel : Nat) (s : St σ τ) (h : s.con = none) : keypressed A fuel s .clear = .error .indeterminate := by
  unfold keypressed
  simp only [Terminal.keypressed]
  have : (arrive s).con = none := by unfold arrive; rw [h]
  rw [this]; rfl

/-- **C130** (refuted) Ctrl-L in a session whose stream goes elsewhere clears the console, and the session does not write to it: what other parts of the program have written is lost. -/
theorem C130_elsewhere_refuted (fuel : Nat) (s s' : St σ τ) (c : Console) (x : Option Exn) (hc : s.con = some c) (hd : s.direct = false) (h : keypressed A fuel s .clear = .ok (s', x)) :
    ∃ c', s'.con = some c' ∧ (∀ r k, r < c.height → k < c.width → c'.screen.cell r k = b%' ') ∧
      s'.q.w.io.out = [] ∧ ∃ q, redraw { s.q with w := { s.q.w with io := { s.q.w.io with out := [] } } } s.q.term.line = .ok q ∧ s'.elsewhere = s.elsewhere ++ s.q.w.io.out ++ q.w.io.out := by
  unfold keypressed at h
  simp only [Terminal.keypressed] at h
  have ha : arrive s = { s with elsewhere := s.elsewhere ++ s.q.w.io.out, q := { s.q with w := { s.q.w with io := { s.q.w.io with out := [] } } } } := by
    unfold arrive; rw [hc, hd]
  rw [ha] at h
  simp only [hc, clear] at h
  split at h
  · cases h
  · rename_i q hq
    simp only [Except.ok.injEq, Prod.mk.injEq] at h
    obtain ⟨rfl, rfl⟩ := h
    refine ⟨_, by simp [arrive, hd]; rfl, ?_, by simp [arrive, hd], q, hq, by simp [arrive, hd]⟩
    intro r k hr hk
    simp only [setCursor, fill]
    rw [if_pos ⟨hk, hr, index_lt hr hk⟩]

/-- **C130** Every other key does what it does elsewhere (`Model/Processor`), and what it has written is shown by the console, or arrives where the stream goes; then the console stays as it is. -/
theorem C130_others (fuel : Nat) (s : St σ τ) (k : Key) (hk : k ≠ .clear) :
    match Processor.keypressed A fuel s.q k, keypressed A fuel s k with
    | .error f, .error e => e = .fault f
    | .ok (q, x), .ok (s', x') => x' = x ∧ s'.direct = s.direct ∧ s'.q = { q with w := { q.w with io := { q.w.io with out := [] } } } ∧
        (∀ c, s.con = some c → s.direct = true → s'.con = some { c with screen := c.screen.run q.w.io.out } ∧ s'.elsewhere = s.elsewhere) ∧
        (s.con = none ∨ s.direct = false → s'.con = s.con ∧ s'.elsewhere = s.elsewhere ++ q.w.io.out)
    | _, _ => False := by
  unfold Processor.keypressed
  cases ht : Terminal.keypressed s.q.term s.q.w.io k with
  | error f => simp only [keypressed, ht, bind, Except.bind]
  | ok r =>
    obtain ⟨t, io, sym⟩ := r
    have hs : sym ≠ .clear := by rintro rfl; exact hk (clear_only ht)
    have : keypressed A fuel s k = (match Processor.newCommand A fuel { s.q with term := t, w := { s.q.w with io := io } } sym with
          | .error f => .error (.fault f)
          | .ok (q, x) => .ok (arrive { s with q := q }, x)) := by
      unfold keypressed
      rw [ht]
      cases sym <;> first | rfl | exact absurd rfl hs
    rw [this]
    simp only [bind, Except.bind]
    cases Processor.newCommand A fuel { s.q with term := t, w := { s.q.w with io := io } } sym with
    | error f => rfl
    | ok r =>
      obtain ⟨q, x⟩ := r
      obtain ⟨sq, con, direct, els⟩ := s
      cases con with
      | none => exact ⟨rfl, rfl, rfl, fun c hc => (by cases hc), fun _ => ⟨rfl, rfl⟩⟩
      | some c =>
        cases direct with
        | false => exact ⟨rfl, rfl, rfl, fun c _ hd => (by cases hd), fun _ => ⟨rfl, rfl⟩⟩
        | true => exact ⟨rfl, rfl, rfl, fun c' hc _ => (by cases hc; exact ⟨rfl, rfl⟩), fun hh => (by rcases hh with hh | hh <;> cases hh)⟩

/-- **C130** An exception of a key ends the execution, and is what the caller gets. -/
theorem C130_exception (fuel : Nat) (ks : List Key) : ∀ (s s' : St σ τ) (e : Exn), run A fuel ks s = .ok (s', some e) ↔
    ∃ pre k post s1, ks = pre ++ k :: post ∧ run A fuel pre s = .ok (s1, none) ∧ keypressed A fuel s1 k = .ok (s', some e) := by
  induction ks with
  | nil => intro s s' e; simp [run]
  | cons k ks ih =>
    intro s s' e
    constructor
    · intro h
      simp only [run] at h
      split at h
      · cases h
      · rename_i s1 x hh
        cases h
        exact ⟨[], k, ks, s, rfl, rfl, hh⟩
      · rename_i s1 hh
        obtain ⟨pre, k', post, s2, rfl, h2, h3⟩ := (ih s1 s' e).1 h
        exact ⟨k :: pre, k', post, s2, rfl, by simp only [run, hh, h2], h3⟩
    · rintro ⟨pre, k', post, s1, hks, h2, h3⟩
      cases pre with
      | nil =>
        simp only [List.nil_append, List.cons.injEq] at hks
        obtain ⟨rfl, rfl⟩ := hks
        cases h2
        simp only [run, h3]
      | cons a pre =>
        simp only [List.cons_append, List.cons.injEq] at hks
        obtain ⟨rfl, rfl⟩ := hks
        simp only [run] at h2 ⊢
        split at h2
        · cases h2
        · cases h2
        · rename_i s2 hh
          exact (ih s2 s' e).2 ⟨pre, k', post, s1, rfl, h2, h3⟩

/-! ### A session in a console with 25 rows and 80 columns -/

namespace Sample
open Props.Sample

/-- In the menu of the sample the word `add` has been typed; two rows above there is a letter. -/
def con : Console := ⟨80, 25, scr (fun r c => if r = 0 then (if c = 3 then b%'X' else b%' ') else (promptText world).getD c b%' ') 2 (promptText world).length bs!"add" 3⟩

def session : St (List Nat) (List Str) := ⟨{ Props.Sample.proc world bs!"add" with w := { world with io := { world.io with out := [] } } }, some con, true, []⟩

theorem con_live : Live session con := by
  refine ⟨rfl, rfl, rfl, by decide, by unfold Printable; decide, ?_, _, 2, fun c _ => rfl, rfl⟩
  unfold Processor.HistPrintable Printable
  decide

theorem con_inside : Inside con := by
  intro r c h
  have hl : (promptText world).length = 5 := rfl
  simp only [con, scr, hl]
  by_cases h0 : r < 2
  · rw [if_pos h0]
    have hc : 80 ≤ c := by simp only [con] at h; omega
    by_cases h1 : r = 0
    · rw [if_pos h1, if_neg (by omega)]
    · rw [if_neg h1]; simp [List.getD_eq_getElem?_getD, List.getElem?_eq_none (show (promptText world).length ≤ c by omega)]
  · rw [if_neg h0]
    by_cases h1 : r = 2
    · have hc : 80 ≤ c := by simp only [con] at h; omega
      rw [if_pos h1, if_neg (by omega)]
      simp [List.getD_eq_getElem?_getD, List.getElem?_eq_none (show (bs!"add").length ≤ c - 5 by simp; omega)]
    · rw [if_neg h1]

theorem prompt_printable : Printable (promptText session.q.w) := by unfold Printable; decide

/-- Ctrl-L, and the letter is gone. -/
example : ∃ s' c', keypressed app 9 session .clear = .ok (s', none) ∧ s'.con = some c' ∧ con.screen.cell 0 3 = b%'X' ∧ c'.screen.cell 0 3 ≠ b%'X' ∧
    c'.screen.cell 0 5 = b%'a' ∧ c'.screen.col = 8 ∧ Live s' c' := by
  cases h : keypressed app 9 session .clear with
  | error e => exact absurd (congrArg (fun r => match r with | .ok _ => true | .error _ => false) h) (by simp; rfl)
  | ok r =>
    obtain ⟨s', x⟩ := r
    obtain ⟨rfl, c', h1, _, _, h2, _, _, h3, _, h4⟩ := C130_clears_partial app 9 session s' con x con_live con_inside prompt_printable h
    refine ⟨s', c', rfl, h1, rfl, ?_, ?_, ?_, h2⟩
    · rw [h3]; decide
    · rw [h3]; decide
    · rw [h4]; rfl

example (s' : St (List Nat) (List Str)) (x : Option Exn) (h : run app 9 [.clear, .left, .ascii b%'x'] session = .ok (s', x)) : x = none ∧ ∃ c', c'.width = 80 ∧ c'.height = 25 ∧ Live s' c' ∧ SameButEditing session.q s'.q :=
  C130_session_partial app 9 [.clear, .left, .ascii b%'x'] session s' con x (by simp [EditKey]; decide) con_live
    (by
      intro pre s1 c1 hp hr hc
      cases pre with
      | nil => simp only [run, Except.ok.injEq, Prod.mk.injEq] at hr; rw [← hr.1] at hc; cases hc; exact con_inside
      | cons a pre =>
        exfalso
        have := hp.subset (show Key.clear ∈ a :: (pre ++ [.clear]) by simp)
        obtain ⟨t, ht⟩ := hp
        cases pre with
        | nil => simp at ht
        | cons b pre => cases pre <;> simp at ht)
    ⟨by unfold Printable; decide, by simp only [session, Props.Sample.world, Props.Sample.tree]; repeat' constructor
                                     all_goals (unfold Printable; decide)⟩ prompt_printable h
example : (run app 9 [.clear, .left, .ascii b%'x'] session).toOption.map (fun r => (r.1.q.term.line, r.1.q.term.pos)) = some (bs!"adxd", 3) := by rfl

example : (keypressed app 9 { session with con := none } .clear) = .error .indeterminate := C130_redirected_refuted app 9 _ rfl

/-- The session writes to a file, and the letter is gone. -/
example : ∃ s' c', keypressed app 9 { session with direct := false } .clear = .ok (s', none) ∧ s'.con = some c' ∧ con.screen.cell 0 3 = b%'X' ∧ c'.screen.cell 0 3 = b%' ' := by
  cases h : keypressed app 9 { session with direct := false } .clear with
  | error e => exact absurd (congrArg (fun r => match r with | .ok _ => true | .error _ => false) h) (by simp; rfl)
  | ok r =>
    obtain ⟨s', x⟩ := r
    have hx : x = none := by
      have := congrArg (fun r => match r with | .ok (_, x) => x | .error _ => none) h
      exact this.symm
    subst hx
    obtain ⟨c', h1, h2, _⟩ := C130_elsewhere_refuted app 9 { session with direct := false } s' con none rfl rfl h
    exact ⟨s', c', rfl, h1, rfl, h2 0 3 (by decide) (by decide)⟩

/-- Enter runs the command of the line, and what it writes goes to the console or to the file. -/
example : (keypressed app 9 session .ret).toOption.map (fun r => (r.1.elsewhere, r.1.q.w.io.out, r.2)) = some ([], [], none) ∧
    ((keypressed app 9 { session with direct := false } .ret).toOption.map (fun r => (r.1.elsewhere.length, r.1.q.w.io.out, r.2))).isSome = true := ⟨rfl, rfl⟩

end Sample

end Verif.WinScreen
