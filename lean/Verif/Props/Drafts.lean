import Verif.Proofs.DraftSteps

set_option linter.unusedSimpArgs false

/-!
# C124: editing lines in the program `complete`, from the keyboard to the screen
-/

namespace Verif.Showcase
open Spec Props Processor
open Terminal (Key)
open Keyboard (decode)
open Script (Harmless line_same)

variable {σ τ α : Type}

/-! ### The specification is unambiguous -/

theorem sorted_same : ∀ {a b : List Str}, a.Pairwise StrBefore → b.Pairwise StrBefore → (∀ c, c ∈ a ↔ c ∈ b) → a = b
  | [], [], _, _, _ => rfl
  | [], y :: b, _, _, h => by have := (h y).2 (by simp); cases this
  | x :: a, [], _, _, h => by have := (h x).1 (by simp); cases this
  | x :: a, y :: b, ha, hb, h => by
    obtain ⟨ha1, ha2⟩ := List.pairwise_cons.1 ha
    obtain ⟨hb1, hb2⟩ := List.pairwise_cons.1 hb
    have hxy : x = y := by
      rcases List.mem_cons.1 ((h x).1 (by simp)) with e | e
      · exact e
      · rcases List.mem_cons.1 ((h y).2 (by simp)) with e' | e'
        · exact e'.symm
        · exact absurd (Completion.before_trans (hb1 x e) (ha1 y e')) (Completion.before_irrefl y)
    subst hxy
    rw [sorted_same ha2 hb2]
    intro c
    have hc := h c
    simp only [List.mem_cons] at hc
    constructor
    · intro m
      rcases hc.1 (.inr m) with rfl | m'
      · exact absurd (ha1 c m) (Completion.before_irrefl c)
      · exact m'
    · intro m
      rcases hc.2 (.inr m) with rfl | m'
      · exact absurd (hb1 c m) (Completion.before_irrefl c)
      · exact m'

theorem offers_same {s : Seat} {l : Str} {a b : List Str} (ha : s.Offers l a) (hb : s.Offers l b) : a = b := sorted_same ha.1 hb.1 fun c => by rw [ha.2, hb.2]

theorem common_same {a b : Str} {cs : List Str} (ha : Common a cs) (hb : Common b cs) : a = b := lcp_unique ha hb

theorem not_edits_tab : ¬ Edits (.ascii 9) := by
  intro h
  cases h with
  | ascii h => revert h; decide

/-- Where the keys lead to, and what they show, is determined. -/
theorem drafting_same {E : Env} {d a b : Desk} {ks : List Key} {o o' : Str} (h1 : Drafting E d ks a o) (h2 : Drafting E d ks b o') : a = b ∧ o = o' := by
  induction h1 generalizing b o' with
  | nil => cases h2; exact ⟨rfl, rfl⟩
  | edit hk _ ih =>
    cases h2 with
    | edit _ h => exact ih h
    | up h | down h | clear h => cases hk
    | tabNone _ _ | tabOne _ _ | tabMore _ _ _ _ | tabList _ _ _ _ => exact absurd hk not_edits_tab
    | enter _ _ _ => cases hk
  | up _ ih =>
    cases h2 with
    | edit hk _ => cases hk
    | up h => exact ih h
  | down _ ih =>
    cases h2 with
    | edit hk _ => cases hk
    | down h => exact ih h
  | clear _ ih =>
    cases h2 with
    | edit hk _ => cases hk
    | clear h => obtain ⟨e1, e2⟩ := ih h; exact ⟨e1, by rw [e2]⟩
  | tabNone c1 _ ih =>
    cases h2 with
    | edit hk _ => exact absurd hk not_edits_tab
    | tabNone _ h => exact ih h
    | tabOne c2 _ | tabMore c2 _ _ _ | tabList c2 _ _ _ => cases offers_same c1 c2
  | tabOne c1 _ ih =>
    cases h2 with
    | edit hk _ => exact absurd hk not_edits_tab
    | tabOne c2 h => cases offers_same c1 c2; exact ih h
    | tabNone c2 _ | tabMore c2 _ _ _ | tabList c2 _ _ _ => cases offers_same c1 c2
  | tabMore c1 p1 l1 _ ih =>
    cases h2 with
    | edit hk _ => exact absurd hk not_edits_tab
    | tabMore c2 p2 _ h => cases offers_same c1 c2; cases common_same p1 p2; exact ih h
    | tabList c2 p2 l2 _ => cases offers_same c1 c2; cases common_same p1 p2; omega
    | tabNone c2 _ | tabOne c2 _ => cases offers_same c1 c2
  | tabList c1 p1 l1 _ ih =>
    cases h2 with
    | edit hk _ => exact absurd hk not_edits_tab
    | tabList c2 p2 _ h => cases offers_same c1 c2; obtain ⟨e1, e2⟩ := ih h; exact ⟨e1, by rw [e2]⟩
    | tabMore c2 p2 l2 _ => cases offers_same c1 c2; cases common_same p1 p2; omega
    | tabNone c2 _ | tabOne c2 _ => cases offers_same c1 c2
  | enter a1 b1 _ ih =>
    cases h2 with
    | edit hk _ => cases hk
    | enter a2 b2 h =>
      obtain ⟨rfl, rfl⟩ := answer_unique a1 a2
      have : ∀ {x y : Option (Str × Nat)} {d : Desk}, (Lex.Line d.text [] ∧ x = d.back) ∨ (¬ Lex.Line d.text [] ∧ x = none) → (Lex.Line d.text [] ∧ y = d.back) ∨ (¬ Lex.Line d.text [] ∧ y = none) → x = y := by
        rintro x y d (⟨u, rfl⟩ | ⟨u, rfl⟩) (⟨v, rfl⟩ | ⟨v, rfl⟩)
        · rfl
        · exact absurd u v
        · exact absurd v u
        · rfl
      cases this b1 b2
      obtain ⟨e1, e2⟩ := ih h
      exact ⟨e1, by rw [e2]⟩

theorem drafting_split {E : Env} : ∀ {a : List Key} {d d2 : Desk} {b : List Key} {o : Str}, Drafting E d (a ++ b) d2 o → ∃ d1 o1 o2, Drafting E d a d1 o1 ∧ Drafting E d1 b d2 o2 ∧ o = o1 ++ o2 := by
  intro a
  induction a with
  | nil => intro d d2 b o h; exact ⟨d, [], o, .nil, h, rfl⟩
  | cons k a ih =>
    intro d d2 b o h
    rw [List.cons_append] at h
    cases h with
    | edit hk h => obtain ⟨d1, o1, o2, h1, h2, rfl⟩ := ih h; exact ⟨d1, o1, o2, .edit hk h1, h2, rfl⟩
    | up h => obtain ⟨d1, o1, o2, h1, h2, rfl⟩ := ih h; exact ⟨d1, o1, o2, .up h1, h2, rfl⟩
    | down h => obtain ⟨d1, o1, o2, h1, h2, rfl⟩ := ih h; exact ⟨d1, o1, o2, .down h1, h2, rfl⟩
    | clear h => obtain ⟨d1, o1, o2, h1, h2, rfl⟩ := ih h; exact ⟨d1, _, o2, .clear h1, h2, by simp⟩
    | tabNone c h => obtain ⟨d1, o1, o2, h1, h2, rfl⟩ := ih h; exact ⟨d1, o1, o2, .tabNone c h1, h2, rfl⟩
    | tabOne c h => obtain ⟨d1, o1, o2, h1, h2, rfl⟩ := ih h; exact ⟨d1, o1, o2, .tabOne c h1, h2, rfl⟩
    | tabMore c p l h => obtain ⟨d1, o1, o2, h1, h2, rfl⟩ := ih h; exact ⟨d1, o1, o2, .tabMore c p l h1, h2, rfl⟩
    | tabList c p l h => obtain ⟨d1, o1, o2, h1, h2, rfl⟩ := ih h; exact ⟨d1, _, o2, .tabList c p l h1, h2, by simp⟩
    | enter c p h => obtain ⟨d1, o1, o2, h1, h2, rfl⟩ := ih h; exact ⟨d1, _, o2, .enter c p h1, h2, by simp⟩

/-- A session that is over does not go on. -/
theorem over_not_on {E : Env} {telnet : Bool} {d d' : Desk} {ks : List Key} {o o' : Str} (h1 : Over E telnet d ks o) (h2 : Drafting E d ks d' o') : False := by
  cases h1 with
  | exit h q =>
    obtain ⟨d1, _, _, g1, g2, _⟩ := drafting_split h2
    obtain ⟨rfl, _⟩ := drafting_same h g1
    cases g2 with
    | edit hk _ => cases hk
    | enter a _ _ => exact answer_no_quit a q
  | eof h =>
    obtain ⟨d1, _, _, _, g2, _⟩ := drafting_split h2
    cases g2 with
    | edit hk _ => cases hk

/-- **C124** What should be shown is determined by the keys. -/
theorem C124_spec {E : Env} {telnet : Bool} {d : Desk} {ks : List Key} {o o' : Str} (h1 : Take E telnet d ks o) (h2 : Take E telnet d ks o') : o = o' := by
  cases h1 with
  | typing h1 =>
    cases h2 with
    | typing h2 => obtain ⟨rfl, rfl⟩ := drafting_same h1 h2; rfl
    | over h2 => exact (over_not_on h2 h1).elim
  | over h1 =>
    cases h2 with
    | typing h2 => exact (over_not_on h1 h2).elim
    | over h2 =>
      generalize hk : ks = ks' at h2
      cases h1 with
      | exit h1 q1 =>
        cases h2 with
        | exit h2 q2 =>
          obtain ⟨rfl, _⟩ := List.append_inj' hk rfl
          obtain ⟨rfl, rfl⟩ := drafting_same h1 h2; rfl
        | eof h2 => obtain ⟨_, e⟩ := List.append_inj' hk rfl; cases e
      | eof h1 =>
        cases h2 with
        | exit h2 _ => obtain ⟨_, e⟩ := List.append_inj' hk rfl; cases e
        | eof h2 =>
          obtain ⟨rfl, _⟩ := List.append_inj' hk rfl
          obtain ⟨rfl, rfl⟩ := drafting_same h1 h2; rfl

/-! ### The session -/

/-- Keys of which the specification says what they do. -/
inductive Usual : Key → Prop
  | edits {k} : Edits k → Usual k
  | up : Usual .up
  | down : Usual .down
  | clear : Usual .clear
  | tab : Usual (.ascii 9)
  | ret : Usual .ret
  | eof : Usual .eof

/-- Keys for which the behaviour is defined, as for C113; the last one may end the session, and no other does. -/
structure Fit (E : Env) (fuel : Nat) (d : Desk) (ks : List Key) : Prop where
  keys : ∀ k ∈ ks, Usual k
  defined : ∀ a b d' o, ks = a ++ .ret :: b → Drafting E d a d' o → Within E (fuel + 1) d'.seat d'.text ∧ ¬ Fails E d'.seat d'.text
  quits : ∀ a b d' o, ks = a ++ .ret :: b → Drafting E d a d' o → Quits d'.seat d'.text → b = []
  eof : ∀ a b, ks = a ++ .eof :: b → b = []
  /-- the stack suffices -/
  tabs : ∀ a b d' o, ks = a ++ .ascii 9 :: b → Drafting E d a d' o → 2 * d'.text.length ≤ fuel

theorem fit_step {E : Env} {fuel : Nat} {d d' : Desk} {k : Key} {ks : List Key} {o : Str} (h : Fit E fuel d (k :: ks)) (hs : ∀ ks d'' o', Drafting E d' ks d'' o' → Drafting E d (k :: ks) d'' (o ++ o')) : Fit E fuel d' ks := by
  refine ⟨fun x hx => h.keys x (by simp [hx]), ?_, ?_, ?_, ?_⟩
  · rintro a b d2 o2 rfl hd; exact h.defined (k :: a) b d2 _ rfl (hs _ _ _ hd)
  · rintro a b d2 o2 rfl hd; exact h.quits (k :: a) b d2 _ rfl (hs _ _ _ hd)
  · rintro a b rfl; exact h.eof (k :: a) b rfl
  · rintro a b d2 o2 rfl hd; exact h.tabs (k :: a) b d2 _ rfl (hs _ _ _ hd)

theorem fit_prefix {E : Env} {fuel : Nat} {d : Desk} {a b : List Key} (h : Fit E fuel d (a ++ b)) : Fit E fuel d a := by
  refine ⟨fun x hx => h.keys x (by simp [hx]), ?_, ?_, ?_, ?_⟩
  · rintro x y d' o rfl hd; exact h.defined x (y ++ b) d' o (by simp) hd
  · rintro x y d' o rfl hd hq; exact (List.append_eq_nil_iff.1 (h.quits x (y ++ b) d' o (by simp) hd hq)).1
  · rintro x y rfl; exact (List.append_eq_nil_iff.1 (h.eof x (y ++ b) (by simp))).1
  · rintro x y d' o rfl hd; exact h.tabs x (y ++ b) d' o (by simp) hd

/-- The state after some keys. -/
def Got (E : Env) (telnet : Bool) (s0 : Screen) (base : Nat → Nat → Byte) (R c : Nat) (d : Desk) (ks : List Key) (q : Proc St τ) : Prop :=
  (∃ d' o base' R' c', Drafting E d ks d' o ∧ On d' q ∧ Tidy d' ∧ (scr base R c [] 0).run o = scr base' R' c' [] 0 ∧ Sees s0 base' R' c' d' q.w.io) ∨
  (∃ o, Over E telnet d ks o ∧ q.w.exit = true ∧ q.w.app = ⟨!telnet, false⟩ ∧ s0.run q.w.io.out = (scr base R c [] 0).run o)

theorem over_step {E : Env} {telnet : Bool} {d d' : Desk} {k : Key} {ks : List Key} {o o' : Str} (hs : ∀ ks d'' o', Drafting E d' ks d'' o' → Drafting E d (k :: ks) d'' (o ++ o')) (h : Over E telnet d' ks o') : Over E telnet d (k :: ks) (o ++ o') := by
  cases h with
  | exit h q =>
    have := Over.exit (telnet := telnet) (hs _ _ _ h) q
    simpa using this
  | eof h =>
    have := Over.eof (telnet := telnet) (hs _ _ _ h)
    simpa using this

theorem drafts (E : Env) (hq : Quiet E) (he : Decent E) {store : τ → List Str → τ} {stored : τ → List Str} {telnet : Bool} (fuel : Nat) (s0 : Screen) : ∀ (ks : List Key) (base : Nat → Nat → Byte) (R c : Nat) (d : Desk) (p : Proc St τ),
    Fit E fuel d ks → On d p → Tidy d → Sees s0 base R c d p.w.io → ∃ q, run (app E store stored telnet) (fuel + 2) ks p = .ok (q, none) ∧ Got E telnet s0 base R c d ks q
  | [], base, R, c, d, p, _, ho, ht, hs => ⟨p, rfl, .inl ⟨d, [], base, R, c, .nil, ho, ht, rfl, hs⟩⟩
  | k :: ks, base, R, c, d, p, hf, ho, ht, hs => by
    have go : Steps E (app E store stored telnet) (fuel + 2) s0 base R c d p k → ∃ q, run (app E store stored telnet) (fuel + 2) (k :: ks) p = .ok (q, none) ∧ Got E telnet s0 base R c d (k :: ks) q := by
      rintro ⟨q, d', o, h1, h2, h3, h4, base', R', c', h5, h6⟩
      obtain ⟨q', g1, g2⟩ := drafts E hq he (store := store) (stored := stored) (telnet := telnet) fuel s0 ks base' R' c' d' q (fit_step hf h4) h2 h3 h6
      refine ⟨q', by simp only [run, h1, bind, Except.bind]; exact g1, ?_⟩
      rcases g2 with ⟨d2, o2, b2, R2, c2, e1, e2, e3, e4, e5⟩ | ⟨o2, e1, e2, e3, e4⟩
      · exact .inl ⟨d2, o ++ o2, b2, R2, c2, h4 _ _ _ e1, e2, e3, by rw [run_append, h5, e4], e5⟩
      · exact .inr ⟨o ++ o2, over_step h4 e1, e2, e3, by rw [run_append, h5, e4]⟩
    have fin : ∀ {o : Str}, ks = [] → Over E telnet d [k] o → Ends telnet (app E store stored telnet) (fuel + 2) s0 base R c p k o → ∃ q, run (app E store stored telnet) (fuel + 2) (k :: ks) p = .ok (q, none) ∧ Got E telnet s0 base R c d (k :: ks) q := by
      rintro o rfl h1 ⟨q, h2, h3, h4, h5⟩
      exact ⟨q, by simp only [run, h2, bind, Except.bind], .inr ⟨o, h1, h3, h4, h5⟩⟩
    cases hf.keys k (by simp) with
    | edits hk =>
      obtain ⟨q, h1, h2, h3, h4⟩ := edit_step (app E store stored telnet) (fuel + 2) hk ho ht hs
      exact go ⟨q, _, [], h1, h2, h3, fun _ _ _ h => .edit hk h, base, R, c, rfl, h4⟩
    | up =>
      obtain ⟨q, h1, h2, h3, h4⟩ := arrow_up (app E store stored telnet) (fuel + 2) ho ht hs
      exact go ⟨q, _, [], h1, h2, h3, fun _ _ _ h => .up h, base, R, c, rfl, h4⟩
    | down =>
      obtain ⟨q, h1, h2, h3, h4⟩ := arrow_down (app E store stored telnet) (fuel + 2) ho ht hs
      exact go ⟨q, _, [], h1, h2, h3, fun _ _ _ h => .down h, base, R, c, rfl, h4⟩
    | clear =>
      obtain ⟨q, h1, h2, h3, b, R', c', h4, h5⟩ := clear_step (app E store stored telnet) (fuel + 2) ho ht hs
      exact go ⟨q, _, _, h1, h2, h3, fun _ _ _ h => .clear h, b, R', c', h4, h5⟩
    | tab => exact go (tab_step E (app E store stored telnet) (fuel + 2) (by have := hf.tabs [] ks d [] rfl .nil; omega) ho ht hs)
    | ret =>
      obtain ⟨h1, h3⟩ := hf.defined [] ks d [] rfl .nil
      rcases enter_step E hq he (store := store) (stored := stored) (telnet := telnet) fuel h1 h3 ho ht hs with ⟨_, h⟩ | ⟨h4, h⟩
      · exact go h
      · exact fin (hf.quits [] ks d [] rfl .nil h4) (by simpa using Over.exit (telnet := telnet) (E := E) (.nil (d := d)) h4) h
    | eof => exact fin (hf.eof [] ks rfl) (by simpa using Over.eof (telnet := telnet) (E := E) (.nil (d := d))) (eof_step E (store := store) (stored := stored) (telnet := telnet) (fuel + 2) ho ht hs)

/-- What is shown is what should be. -/
theorem got_take {E : Env} {telnet : Bool} {s0 : Screen} {base : Nat → Nat → Byte} {R c : Nat} {d : Desk} {ks : List Key} {q : Proc St τ} (h : Got E telnet s0 base R c d ks q) :
    ∃ o, Take E telnet d ks o ∧ s0.run q.w.io.out = (scr base R c [] 0).run o ∧ q.w.app.ub = false ∧ (q.w.exit = true ↔ ∃ o', Over E telnet d ks o') ∧ (q.w.app.stopped = true ↔ telnet = false ∧ ∃ o', Over E telnet d ks o') := by
  rcases h with ⟨d', o, b, R', c', h1, h2, h3, h4, h5⟩ | ⟨o, h1, h2, h3, h4⟩
  · have e : (scr b R' c' [] 0).run (d'.seat.echoes d'.text ++ leftwards d'.line.after.length) = scr b R' c' d'.text d'.line.before.length := line_run _ _ _ _ _ h3.line
    have hx : q.w.exit = false := h2.place.exit
    have ha : q.w.app = ⟨false, false⟩ := h2.place.app
    refine ⟨_, .typing h1, ?_, by rw [ha], ?_, ?_⟩
    · rw [List.append_assoc, run_append, h4, e]; exact h5
    · rw [hx]; exact ⟨fun h => (by cases h), fun ⟨_, h⟩ => (over_not_on h h1).elim⟩
    · rw [ha]; exact ⟨fun h => (by cases h), fun ⟨_, _, h⟩ => (over_not_on h h1).elim⟩
  · refine ⟨o, .over h1, h4, by rw [h3], by rw [h2]; exact ⟨fun _ => ⟨o, h1⟩, fun _ => rfl⟩, ?_⟩
    rw [h3]
    cases telnet
    · exact ⟨fun _ => ⟨rfl, o, h1⟩, fun _ => rfl⟩
    · exact ⟨fun h => (by cases h), fun ⟨h, _⟩ => (by cases h)⟩

/-! ### A program whose keys are as they should be -/

/-- Each key is handled without an exception or undefined behaviour, and it is the last one that stops the scheduler. -/
def GoesKeys (A : App σ τ) (stopped : σ → Bool) (fuel : Nat) (q0 : Proc σ τ) (ks : List Key) : Prop :=
  ∀ a, a <+: ks → ∃ q, run A fuel a q0 = .ok (q, none) ∧ (stopped q.w.app = true ↔ a = ks)

theorem keys_posted {A : App σ τ} {stopped : σ → Bool} {fuel : Nat} {p : Platform} {q0 : Proc σ τ} {ks rest : List Key} {arr : Str} {s : Program.St σ τ α} (ha : (decode p .first arr).2 <+: ks ++ rest)
    (g : InTurn A stopped fuel p q0 arr s) : s.loc.kb.posted <+: ks ++ rest := by
  obtain ⟨r, g1, g2⟩ := g.typing.read
  have h1 : s.loc.kb.posted <+: (decode p .first arr).2 := by rw [g1]; exact decoded_prefix g2
  exact h1.trans ha

/-- How far the program has come: it has handled some of the keys. -/
theorem keys_handled {A : App σ τ} {stopped : σ → Bool} {fuel : Nat} {p : Platform} {q0 : Proc σ τ} {ks rest : List Key} {arr : Str} {s : Program.St σ τ α} (ha : (decode p .first arr).2 <+: ks ++ rest)
    (hg : GoesKeys A stopped fuel q0 ks) (g : InTurn A stopped fuel p q0 arr s) :
    s.loc.handled ≤ ks.length ∧ s.loc.kb.posted.take s.loc.handled = ks.take s.loc.handled ∧ run A fuel (ks.take s.loc.handled) q0 = .ok (s.loc.proc, none) ∧
      (stopped s.loc.proc.w.app = true ↔ s.loc.handled = ks.length) := by
  have hp := keys_posted ha g
  have hlen : s.loc.handled ≤ ks.length := by
    refine Classical.byContradiction fun hn => ?_
    have hlt : ks.length < s.loc.handled := by omega
    have e : s.loc.kb.posted.take ks.length = ks := by
      obtain ⟨t, ht⟩ := hp
      have h1 : ks.length ≤ s.loc.kb.posted.length := Nat.le_trans (Nat.le_of_lt hlt) g.typing.handled
      have := congrArg (List.take ks.length) ht
      rw [List.take_append_of_le_length h1] at this
      rw [this, List.take_append_of_le_length (by simp), List.take_of_length_le (by simp)]
    obtain ⟨q, h1, h2⟩ := hg ks (List.prefix_refl _)
    have := g.first ks.length hlt q none (by rw [e]; exact h1)
    rw [h2.2 rfl] at this; cases this
  have e : s.loc.kb.posted.take s.loc.handled = ks.take s.loc.handled := by
    obtain ⟨t, ht⟩ := hp
    have := congrArg (List.take s.loc.handled) ht
    rw [List.take_append_of_le_length g.typing.handled] at this
    rw [this, List.take_append_of_le_length hlen]
  have hr := g.typing.proc
  rw [e] at hr
  refine ⟨hlen, e, hr, ?_⟩
  obtain ⟨q, h1, h2⟩ := hg (ks.take s.loc.handled) (List.take_prefix _ _)
  rw [hr] at h1
  cases h1
  rw [h2]
  constructor
  · intro h
    have := congrArg List.length h
    rw [List.length_take] at this
    omega
  · intro h
    rw [h, List.take_length]

/-- Then nothing goes wrong, whatever the order in which things happen. -/
theorem keys_step {A : App σ τ} {stopped : σ → Bool} {fuel : Nat} {p : Platform} {manual : α → α} {q0 : Proc σ τ} {ks rest : List Key} {arr : Str} {s : Program.St σ τ α} (ha : (decode p .first arr).2 <+: ks ++ rest)
    (hg : GoesKeys A stopped fuel q0 ks) (g : InTurn A stopped fuel p q0 arr s) (e : Program.Ev α) :
    Program.step A stopped fuel p manual s e = .ok none ∨ ∃ s', Program.step A stopped fuel p manual s e = .ok (some (s', none)) := by
  obtain ⟨hlen, hpost, hrun, hstop⟩ := keys_handled ha hg g
  cases e with
  | kb e =>
    simp only [Program.step, Local.step]
    split
    · cases Keyboard.step p manual s.loc.kb e with
      | none => exact .inl rfl
      | some k => exact .inr ⟨_, rfl⟩
    · exact .inl rfl
  | task =>
    simp only [Program.step]
    split
    · rename_i hcond
      simp only [Local.step]
      split
      · exact .inl rfl
      · cases hk : s.loc.kb.posted[s.loc.handled]? with
        | none => exact .inl rfl
        | some key =>
          simp only [g.typing.live, if_true]
          have hlt : s.loc.handled < ks.length := by
            rcases Nat.lt_or_ge s.loc.handled ks.length with h | h
            · exact h
            · have := hstop.2 (by omega)
              rw [hcond.2] at this; cases this
          obtain ⟨hl, hk'⟩ := List.getElem?_eq_some_iff.1 hk
          have e1 : s.loc.kb.posted.take (s.loc.handled + 1) = ks.take s.loc.handled ++ [key] := by
            rw [List.take_add_one, hk, hpost]; rfl
          have e2 : s.loc.kb.posted.take (s.loc.handled + 1) = ks.take (s.loc.handled + 1) := by
            obtain ⟨t, ht⟩ := keys_posted ha g
            have := congrArg (List.take (s.loc.handled + 1)) ht
            rw [List.take_append_of_le_length hl] at this
            rw [this, List.take_append_of_le_length hlt]
          obtain ⟨q, h1, _⟩ := hg (ks.take (s.loc.handled + 1)) (List.take_prefix _ _)
          rw [← e2, e1, run_snoc A fuel _ _ _ _ hrun] at h1
          rw [h1]
          simp only
          split
          · exact .inr ⟨_, rfl⟩
          · exact .inr ⟨_, rfl⟩
    · exact .inl rfl
  | done =>
    simp only [Program.step, Local.step]
    split
    · split
      · cases Keyboard.step p manual s.loc.kb .activate with
        | none => exact .inl rfl
        | some k => exact .inr ⟨_, rfl⟩
      · exact .inl rfl
    · exact .inl rfl
  | ret =>
    simp only [Program.step]
    split
    · exact .inr ⟨_, rfl⟩
    · exact .inl rfl
  | destroy =>
    simp only [Program.step]
    split
    · cases Keyboard.step p manual s.loc.kb .stop with
      | none => exact .inl rfl
      | some k => exact .inr ⟨_, rfl⟩
    · exact .inl rfl
  | join =>
    simp only [Program.step]
    split
    · exact .inr ⟨_, rfl⟩
    · exact .inl rfl

theorem keys_run {A : App σ τ} {stopped : σ → Bool} {fuel : Nat} {p : Platform} {manual : α → α} {q0 : Proc σ τ} {ks rest : List Key} (hg : GoesKeys A stopped fuel q0 ks) :
    ∀ (es : List (Program.Ev α)) {arr : Str} {s : Program.St σ τ α}, InTurn A stopped fuel p q0 arr s → (∀ e ∈ es, Props.Calm e) → (decode p .first (arr ++ Program.typed es)).2 <+: ks ++ rest →
      Program.run A stopped fuel p manual es s = .ok none ∨ ∃ s', Program.run A stopped fuel p manual es s = .ok (some (s', none))
  | [], _, s, _, _, _ => .inr ⟨s, rfl⟩
  | e :: es, arr, s, g, hc, ha => by
    rw [Program.typed_cons, ← List.append_assoc] at ha
    have h0 : (decode p .first arr).2 <+: ks ++ rest := by
      refine List.IsPrefix.trans ?_ ha
      rw [List.append_assoc, decode_append]
      exact List.prefix_append _ _
    simp only [Program.run]
    rcases keys_step (manual := manual) h0 hg g e with h | ⟨s', h⟩
    · rw [h]; exact .inl rfl
    · rw [h]
      exact keys_run hg es (inTurn_step g (hc e (by simp)) h) (fun e he => hc e (by simp [he])) ha

/-! ### The program -/

/-- Before anything is typed. -/
def Desk.start (tty : Bool) (b : Book) : Desk := ⟨Seat.start tty b, ⟨[], []⟩, none⟩

/-- Keys of which the last one ends the session and no other does, for which the behaviour is defined. The history has room for a line, and what earlier sessions left in it can be printed, as well as what the two commands with arguments of
    several types write. -/
structure Rehearsal (E : Env) (fuel : Nat) (d : Desk) (ks : List Key) : Prop where
  quiet : Quiet E
  decent : Decent E
  tidy : Tidy d
  fit : Fit E fuel d ks
  last : ∃ a k, ks = a ++ [k] ∧ ∀ d' o, Drafting E d a d' o → k = .eof ∨ (k = .ret ∧ Quits d'.seat d'.text)

theorem over_whole {E : Env} {telnet : Bool} {fuel : Nat} {d : Desk} {a ks : List Key} {o : Str} (hf : Fit E fuel d ks) (ha : a <+: ks) (ho : Over E telnet d a o) : a = ks := by
  obtain ⟨t, rfl⟩ := ha
  cases ho with
  | exit h q =>
    have := hf.quits _ t _ _ (by simp) h q
    rw [this]; simp
  | eof h =>
    have := hf.eof _ t (List.append_assoc _ _ _)
    rw [this]; simp

section
variable (E : Env) (store : τ → List Str → τ) (stored : τ → List Str)

theorem rehearsal_run {tty telnet : Bool} {b : Book} {fuel : Nat} {ks : List Key} (h : Rehearsal E fuel (Desk.start tty b) ks) {w : W τ} (h2 : At (Seat.start tty b) w) (h3 : w.io.out = (Seat.start tty b).prompt) (a : List Key) (ha : a <+: ks) :
    ∃ q o, run (app E store stored telnet) (fuel + 2) a ⟨w, ⟨[], 0⟩, true⟩ = .ok (q, none) ∧ Take E telnet (Desk.start tty b) a o ∧
      (∀ base R, (scr base R 0 [] 0).run q.w.io.out = (scr base R 0 [] 0).run ((Seat.start tty b).prompt ++ o)) ∧
      (q.w.app.stopped = true ↔ telnet = false ∧ a = ks) ∧ q.w.app.ub = false ∧ (q.w.exit = true ↔ a = ks) := by
  have hm : w.hist.mode = .inserting := h2.kept.mode
  have hset : settled w.hist = w.hist := by simp only [settled, hm]
  have hon : On (Desk.start tty b) (⟨w, ⟨[], 0⟩, true⟩ : Proc St τ) :=
    ⟨by simp only [hset]; exact h2, h2.hist, hm, rfl, rfl, by cases tty <;> rfl⟩
  have go : ∀ base R a, a <+: ks → ∃ q base' c, run (app E store stored telnet) (fuel + 2) a ⟨w, ⟨[], 0⟩, true⟩ = .ok (q, none) ∧ (scr base R 0 [] 0).run (Seat.start tty b).prompt = scr base' R c [] 0 ∧
      Got E telnet (scr base R 0 [] 0) base' R c (Desk.start tty b) a q := by
    intro base R a ha
    obtain ⟨base', c, hp⟩ := prompt_run (Seat.start tty b) base R
    obtain ⟨t, rfl⟩ := ha
    obtain ⟨q, g1, g2⟩ := drafts E h.quiet h.decent (store := store) (stored := stored) (telnet := telnet) fuel (scr base R 0 [] 0) a base' R c _ ⟨w, ⟨[], 0⟩, true⟩ (fit_prefix h.fit) hon h.tidy (by
      simp only [Sees, h3, hp, Desk.start, Desk.text, Zip.text, List.reverse_nil, List.append_nil, List.length_nil])
    exact ⟨q, base', c, g1, hp, g2⟩
  have hover : (∃ o, Over E telnet (Desk.start tty b) a o) ↔ a = ks := by
    constructor
    · rintro ⟨o, ho⟩; exact over_whole h.fit ha ho
    · rintro rfl
      obtain ⟨b, k, rfl, hl⟩ := h.last
      obtain ⟨q, base', c, _, _, g⟩ := go (fun _ _ => 0) 0 b (List.prefix_append _ _)
      rcases g with ⟨d', o, _, _, _, hd, _⟩ | ⟨o, ho, _⟩
      · rcases hl d' o hd with rfl | ⟨rfl, hq⟩
        · exact ⟨_, .eof hd⟩
        · exact ⟨_, .exit hd hq⟩
      · have := congrArg List.length (over_whole h.fit (List.prefix_append _ _) ho)
        simp at this
  obtain ⟨q, base', c, g1, g2, g3⟩ := go (fun _ _ => 0) 0 a ha
  obtain ⟨o, e1, _, e3, e4, e5⟩ := got_take g3
  refine ⟨q, o, g1, e1, ?_, by rw [← hover]; exact e5, e3, by rw [← hover]; exact e4⟩
  intro base R
  obtain ⟨q', b2, c2, k1, k2, k3⟩ := go base R a ha
  rw [g1] at k1
  cases k1
  obtain ⟨o2, f1, f2, _⟩ := got_take k3
  rw [C124_spec e1 f1, run_append, k2]
  exact f2

theorem rehearsal_at {tty : Bool} {n : Nat} {st : τ} {fuel : Nat} {ks : List Key} (h : Rehearsal E fuel (Desk.start tty (Book.open n (stored st))) ks) {manual : α → α} {tt : α} {l : Local.St St τ α}
    (h0 : Local.create (app E store stored false) manual tt n (cli st) ⟨⟨false, tty, false⟩, []⟩ = .ok (l, none)) (a : List Key) (ha : a <+: ks) :
    ∃ q o, run (app E store stored false) (fuel + 2) a l.proc = .ok (q, none) ∧ Take E false (Desk.start tty (Book.open n (stored st))) a o ∧
      (∀ base R, (scr base R 0 [] 0).run q.w.io.out = (scr base R 0 [] 0).run ((Seat.start tty (Book.open n (stored st))).prompt ++ o)) ∧
      (q.w.app.stopped = true ↔ a = ks) ∧ q.w.app.ub = false ∧ (q.w.exit = true ↔ a = ks) := by
  obtain ⟨w, h1, h2, h3⟩ := created E store stored h0
  obtain ⟨q, o, g1, g2, g3, g4, g5⟩ := rehearsal_run E store stored (telnet := false) h h2 h3 a ha
  exact ⟨q, o, by rw [h1]; exact g1, g2, g3, by simpa using g4, g5⟩

theorem rehearsal_goes {tty : Bool} {n : Nat} {st : τ} {fuel : Nat} {ks : List Key} (h : Rehearsal E fuel (Desk.start tty (Book.open n (stored st))) ks) {manual : α → α} {tt : α} {l : Local.St St τ α}
    (h0 : Local.create (app E store stored false) manual tt n (cli st) ⟨⟨false, tty, false⟩, []⟩ = .ok (l, none)) : GoesKeys (app E store stored false) (·.stopped) (fuel + 2) l.proc ks := by
  intro a ha
  obtain ⟨q, o, g1, _, _, g4, _⟩ := rehearsal_at E store stored h h0 a ha
  exact ⟨q, g1, g4⟩

/-- A line whose behaviour should be undefined leads to undefined behaviour, of the program or of a handler. -/
theorem fail_step {telnet : Bool} (hq : Quiet E) (fuel : Nat) {d : Desk} {p : Proc St τ} (hw : Within E (fuel + 1) d.seat d.text) (hf : Fails E d.seat d.text) (ho : On d p) :
    (∃ u, keypressed (app E store stored telnet) (fuel + 2) p .ret = .error (.ub u)) ∨ ∃ q, keypressed (app E store stored telnet) (fuel + 2) p .ret = .ok (q, none) ∧ q.w.app.ub = true := by
  have hl : p.term.line = d.text := by rw [ho.term]
  have ha : At d.seat { p.w.put bs!"\r\n" with hist := settled (p.w.put bs!"\r\n").hist } := at_keeps ho.place ho.prompted (keeps_put _ _)
  obtain ⟨toks, htoks⟩ : ∃ toks, Lex.Line d.text toks := ⟨_, (split_iff _ _).1 (C03_split_total d.text).choose_spec⟩
  rcases answer_step (store := store) (stored := stored) (telnet := telnet) E hq (fuel + 1) ha hw with ⟨_, e, _⟩ | ⟨_, e⟩ | ⟨_, _, _, e, _⟩
  · exact absurd e (fails_no_quit hf)
  · have hne : toks ≠ [] := by
      rintro rfl
      rw [feed_blank _ htoks] at e
      rcases e with ⟨w', e, h⟩ | ⟨u, e⟩
      · cases e
        rw [ha.app] at h; cases h
      · cases e
    have hfeed : feed (app E store stored telnet) (fuel + 2) d.text (p.w.put bs!"\r\n") = feed (app E store stored telnet) (fuel + 2) d.text { p.w.put bs!"\r\n" with hist := settled (p.w.put bs!"\r\n").hist } := by
      rw [feed_eq _ htoks hne, feed_eq _ htoks hne]
      have : History.newCommand (settled (p.w.put bs!"\r\n").hist) d.text = History.newCommand (p.w.put bs!"\r\n").hist d.text := settled_command ho.wf _
      simp only [this]
      rfl
    have key : keypressed (app E store stored telnet) (fuel + 2) p .ret = (do
        let (w, x) ← feed (app E store stored telnet) (fuel + 2) d.text (p.w.put bs!"\r\n")
        match x with
        | some e => .ok (⟨w, ⟨[], 0⟩, false⟩, some e)
        | none => do
          let w ← prompt w
          .ok (⟨w, ⟨[], 0⟩, true⟩, none)) := by
      simp only [keypressed, Terminal.keypressed, bind, Except.bind, newCommand, hl]
      rfl
    rw [key, hfeed]
    rcases e with ⟨w', h1, h2⟩ | ⟨u, h⟩
    · rw [h1]
      simp only [bind, Except.bind]
      have : (∃ io, prompt w' = .ok { w' with io := io }) ∨ prompt w' = .error (.ub .dangling) := by
        unfold prompt
        split
        · exact .inl ⟨w'.io, rfl⟩
        · split
          · exact .inl ⟨_, rfl⟩
          · exact .inr rfl
      rcases this with ⟨io, h⟩ | h
      · exact .inr ⟨_, by rw [h], h2⟩
      · exact .inl ⟨_, by rw [h]⟩
    · exact .inl ⟨u, by rw [h]; rfl⟩
  · exact absurd hf e

/-- Before that, the session goes on. -/
theorem fit_going {tty telnet : Bool} {b : Book} {fuel : Nat} {ks a : List Key} (hq : Quiet E) (he : Decent E) (ht : Tidy (Desk.start tty b)) (hk : Fit E fuel (Desk.start tty b) ks)
    {w : W τ} (h2 : At (Seat.start tty b) w) (h3 : w.io.out = (Seat.start tty b).prompt) {d : Desk} {o : Str} (hd : Drafting E (Desk.start tty b) ks d o) (ha : a <+: ks) :
    ∃ q, run (app E store stored telnet) (fuel + 2) a ⟨w, ⟨[], 0⟩, true⟩ = .ok (q, none) ∧ ∃ d' o', Drafting E (Desk.start tty b) a d' o' ∧ On d' q := by
  have hm : w.hist.mode = .inserting := h2.kept.mode
  have hset : settled w.hist = w.hist := by simp only [settled, hm]
  have hon : On (Desk.start tty b) (⟨w, ⟨[], 0⟩, true⟩ : Proc St τ) :=
    ⟨by simp only [hset]; exact h2, h2.hist, hm, rfl, rfl, by cases tty <;> rfl⟩
  obtain ⟨base', c, hp⟩ := prompt_run (Seat.start tty b) (fun _ _ => 0) 0
  have ha' := ha
  obtain ⟨t, rfl⟩ := ha'
  obtain ⟨q, g1, g2⟩ := drafts E hq he (store := store) (stored := stored) (telnet := telnet) fuel (scr (fun _ _ => 0) 0 0 [] 0) a base' 0 c _ ⟨w, ⟨[], 0⟩, true⟩ (fit_prefix hk) hon ht (by
    simp only [Sees, h3, hp, Desk.start, Desk.text, Zip.text, List.reverse_nil, List.append_nil, List.length_nil])
  rcases g2 with ⟨d', o', _, _, _, e1, e2, _⟩ | ⟨_, e1, _⟩
  · exact ⟨q, g1, d', o', e1, e2⟩
  · have := over_whole hk ha e1
    rw [← this] at hd
    exact (over_not_on e1 hd).elim

/-- The same, for the keys of the whole session. -/
theorem fail_run {tty telnet : Bool} {b : Book} {fuel : Nat} {ks : List Key} (hq : Quiet E) (he : Decent E) (ht : Tidy (Desk.start tty b)) (hk : Fit E fuel (Desk.start tty b) ks)
    {w : W τ} (h2 : At (Seat.start tty b) w) (h3 : w.io.out = (Seat.start tty b).prompt) {d : Desk} {o : Str} (hd : Drafting E (Desk.start tty b) ks d o) (hw : Within E (fuel + 1) d.seat d.text) (hf : Fails E d.seat d.text) :
    (∃ u, run (app E store stored telnet) (fuel + 2) (ks ++ [.ret]) ⟨w, ⟨[], 0⟩, true⟩ = .error (.ub u)) ∨ ∃ q, run (app E store stored telnet) (fuel + 2) (ks ++ [.ret]) ⟨w, ⟨[], 0⟩, true⟩ = .ok (q, none) ∧ q.w.app.ub = true := by
  obtain ⟨q, g1, d', o', e1, e2⟩ := fit_going E store stored (telnet := telnet) hq he ht hk h2 h3 hd (List.prefix_refl _)
  obtain ⟨rfl, _⟩ := drafting_same hd e1
  rw [Props.proc_run_append, g1]
  rcases fail_step E store stored (telnet := telnet) hq fuel hw hf e2 with ⟨u, e⟩ | ⟨q', e, hu⟩
  · exact .inl ⟨u, by simp only [run, e, bind, Except.bind]⟩
  · exact .inr ⟨q', by simp only [run, e, bind, Except.bind], hu⟩

/-- **C124** A line whose behaviour should be undefined leads to undefined behaviour in the model when Enter is pressed, however it has been typed, edited, recalled or completed: that of the program, or that of the handler (which is marked in its state). -/
theorem C124_undefined (hq : Quiet E) (he : Decent E) {tty : Bool} {n : Nat} {st : τ} {fuel : Nat} {manual : α → α} {tt : α} {l : Local.St St τ α}
    (h0 : Local.create (app E store stored false) manual tt n (cli st) ⟨⟨false, tty, false⟩, []⟩ = .ok (l, none)) (ks : List Key) (d : Desk) (o : Str)
    (ht : Tidy (Desk.start tty (Book.open n (stored st)))) (hk : Fit E fuel (Desk.start tty (Book.open n (stored st))) ks) (hd : Drafting E (Desk.start tty (Book.open n (stored st))) ks d o)
    (hw : Within E (fuel + 1) d.seat d.text) (hf : Fails E d.seat d.text) :
    (∃ u, run (app E store stored false) (fuel + 2) (ks ++ [.ret]) l.proc = .error (.ub u)) ∨ ∃ q, run (app E store stored false) (fuel + 2) (ks ++ [.ret]) l.proc = .ok (q, none) ∧ q.w.app.ub = true := by
  obtain ⟨w, h1, h2, h3⟩ := created E store stored h0
  rw [h1]
  exact fail_run E store stored hq he ht hk h2 h3 hd hw hf

/-- **C124** (partial) At any time, whatever the order in which the threads take their steps and the keys are pressed: the screen of the program `complete` looks as if the prompt, the lines as they have been entered, the answers, and the line as it is
    now had been written without a mistake, for some of the keys pressed, those that have been handled; and the cursor is where it should be. Missing: as for C113, lines for which the behaviour is undefined; characters that cannot be printed. -/
theorem C124_screen_partial (fuel : Nat) (p : Platform) (manual : α → α) (tt : α) (n : Nat) (tty : Bool) (st : τ) (l : Local.St St τ α) (s : Program.St St τ α) (es : List (Program.Ev α)) (ks rest : List Key)
    (h : Rehearsal E fuel (Desk.start tty (Book.open n (stored st))) ks) (h0 : Local.create (app E store stored false) manual tt n (cli st) ⟨⟨false, tty, false⟩, []⟩ = .ok (l, none)) (hc : ∀ e ∈ es, Props.Calm e)
    (ht : (decode p .first (Program.typed es)).2 <+: ks ++ rest) (hr : Program.run (app E store stored false) (·.stopped) (fuel + 2) p manual es ⟨l, .run⟩ = .ok (some (s, none))) :
    ∃ a o, a <+: (decode p .first (Program.typed es)).2 ∧ a <+: ks ∧ Take E false (Desk.start tty (Book.open n (stored st))) a o ∧
      (∀ base R, (scr base R 0 [] 0).run s.loc.proc.w.io.out = (scr base R 0 [] 0).run ((Seat.start tty (Book.open n (stored st))).prompt ++ o)) ∧
      (s.phase ≠ .run → a = ks) ∧ s.loc.proc.w.app.ub = false ∧ (s.loc.proc.w.exit = true ↔ a = ks) := by
  have g := inTurn_run es (inTurn_create (stopped := (·.stopped)) (fuel := fuel + 2) (p := p) h0) hc hr
  rw [List.nil_append] at g
  obtain ⟨k1, k2, k3, k4⟩ := keys_handled ht (rehearsal_goes E store stored h h0) g
  obtain ⟨q, o, g1, g2, g3, g4, g5, g6⟩ := rehearsal_at E store stored h h0 _ (List.take_prefix s.loc.handled _)
  rw [k3] at g1
  cases g1
  refine ⟨_, o, ?_, List.take_prefix _ _, g2, g3, fun hp => g4.1 (g.after hp).1, g5, g6⟩
  obtain ⟨r, f1, f2⟩ := g.typing.read
  rw [← k2, f1]
  exact (List.take_prefix _ _).trans (decoded_prefix f2)

/-- **C124** (partial) Nothing goes wrong: the behaviour is defined, and no exception leaves the scheduler. -/
theorem C124_defined_partial (fuel : Nat) (p : Platform) (manual : α → α) (tt : α) (n : Nat) (tty : Bool) (st : τ) (l : Local.St St τ α) (es : List (Program.Ev α)) (ks rest : List Key)
    (h : Rehearsal E fuel (Desk.start tty (Book.open n (stored st))) ks) (h0 : Local.create (app E store stored false) manual tt n (cli st) ⟨⟨false, tty, false⟩, []⟩ = .ok (l, none)) (hc : ∀ e ∈ es, Props.Calm e)
    (ht : (decode p .first (Program.typed es)).2 <+: ks ++ rest) :
    Program.run (app E store stored false) (·.stopped) (fuel + 2) p manual es ⟨l, .run⟩ = .ok none ∨ ∃ s, Program.run (app E store stored false) (·.stopped) (fuel + 2) p manual es ⟨l, .run⟩ = .ok (some (s, none)) :=
  keys_run (rehearsal_goes E store stored h h0) es (inTurn_create h0) hc (by rw [List.nil_append]; exact ht)

/-- **C124** (partial) When neither thread can do anything more (which is so after a bounded number of steps, `C90_bounded`): the program waits for input, and the screen shows what belongs to all the keys pressed; or it is over, and the screen shows
    what belongs to the keys up to the end of the session; or this is so but for the end of the program, which waits for the rest of half an escape sequence that has been typed after the end of the session. -/
theorem C124_rest_partial (fuel : Nat) (p : Platform) (manual : α → α) (tt : α) (n : Nat) (tty : Bool) (st : τ) (l : Local.St St τ α) (s : Program.St St τ α) (es : List (Program.Ev α)) (ks rest : List Key)
    (h : Rehearsal E fuel (Desk.start tty (Book.open n (stored st))) ks) (h0 : Local.create (app E store stored false) manual tt n (cli st) ⟨⟨false, tty, false⟩, []⟩ = .ok (l, none)) (hc : ∀ e ∈ es, Props.Calm e)
    (ht : (decode p .first (Program.typed es)).2 <+: ks ++ rest) (hr : Program.run (app E store stored false) (·.stopped) (fuel + 2) p manual es ⟨l, .run⟩ = .ok (some (s, none)))
    (hq : ∀ e, Moves e → Program.step (app E store stored false) (·.stopped) (fuel + 2) p manual s e = .ok none) :
    ∃ a o, Take E false (Desk.start tty (Book.open n (stored st))) a o ∧ (∀ base R, (scr base R 0 [] 0).run s.loc.proc.w.io.out = (scr base R 0 [] 0).run ((Seat.start tty (Book.open n (stored st))).prompt ++ o)) ∧
      ((s.phase = .run ∧ a = (decode p .first (Program.typed es)).2 ∧ a <+: ks ∧ a ≠ ks) ∨
       (s.phase = .over ∧ a = ks ∧ ks <+: (decode p .first (Program.typed es)).2) ∨
       (s.phase = .joining ∧ a = ks ∧ ks <+: (decode p .first (Program.typed es)).2 ∧ (decode p .first (Program.typed es)).1 ≠ .first)) := by
  have g := inTurn_run es (inTurn_create (stopped := (·.stopped)) (fuel := fuel + 2) (p := p) h0) hc hr
  rw [List.nil_append] at g
  obtain ⟨k1, k2, k3, k4⟩ := keys_handled ht (rehearsal_goes E store stored h h0) g
  obtain ⟨q, o, g1, g2, g3, g4, _⟩ := rehearsal_at E store stored h h0 _ (List.take_prefix s.loc.handled _)
  rw [k3] at g1
  cases g1
  have hty : ks.take s.loc.handled <+: (decode p .first (Program.typed es)).2 := by
    obtain ⟨r, f1, f2⟩ := g.typing.read
    rw [← k2, f1]
    exact (List.take_prefix _ _).trans (decoded_prefix f2)
  refine ⟨_, o, g2, g3, ?_⟩
  rcases program_rest _ _ _ p manual _ _ s g hq with h1 | ⟨h1, h2, h3, h4⟩ | ⟨h1, h2⟩
  · have e := g4.1 (g.after (by rw [h1]; simp)).1
    rw [e] at hty
    exact .inr (.inl ⟨h1, e, hty⟩)
  · have hlt : s.loc.handled < ks.length := by
      rcases Nat.lt_or_ge s.loc.handled ks.length with hlt | hge
      · exact hlt
      · have := k4.2 (by omega)
        rw [h2] at this; cases this
    refine .inl ⟨h1, ?_, List.take_prefix _ _, ?_⟩
    · rw [← k2, h3, List.take_length, h4]
    · intro hx
      have := congrArg List.length hx
      rw [List.length_take] at this
      omega
  · have e := g4.1 (g.after (by rw [h1]; simp)).1
    rw [e] at hty
    exact .inr (.inr ⟨h1, e, hty, h2⟩)

end

/-! ### Examples -/

theorem fit_nil {E : Env} {fuel : Nat} {d : Desk} : Fit E fuel d [] :=
  ⟨fun _ h => (by cases h), fun a _ _ _ h => (by cases a <;> cases h), fun a _ _ _ h => (by cases a <;> cases h), fun a _ h => (by cases a <;> cases h), fun a _ _ _ h => (by cases a <;> cases h)⟩

/-- A key, and those after it. -/
theorem fit_cons {E : Env} {fuel : Nat} {d d' : Desk} {k : Key} {ks : List Key} {o : Str} (hk : Usual k) (hs : ∀ a d'' o', Drafting E d' a d'' o' → Drafting E d (k :: a) d'' (o ++ o'))
    (h1 : k = .ret → (Within E (fuel + 1) d.seat d.text ∧ ¬ Fails E d.seat d.text) ∧ ¬ Quits d.seat d.text) (h2 : k ≠ .eof) (h3 : k = .ascii 9 → 2 * d.text.length ≤ fuel) (hf : Fit E fuel d' ks) :
    Fit E fuel d (k :: ks) := by
  have inv : ∀ {a d2 o2}, Drafting E d (k :: a) d2 o2 → ∃ o', Drafting E d' a d2 o' := by
    intro a d2 o2 h
    obtain ⟨d1, o1, o3, g1, g2, _⟩ := drafting_split (a := [k]) h
    obtain ⟨rfl, _⟩ := drafting_same g1 (hs [] _ _ .nil)
    exact ⟨_, g2⟩
  have at0 : ∀ {d2 o2}, Drafting E d [] d2 o2 → d2 = d := by intro d2 o2 h; cases h; rfl
  refine ⟨?_, ?_, ?_, ?_, ?_⟩
  · intro x hx
    rcases List.mem_cons.1 hx with rfl | hx
    · exact hk
    · exact hf.keys x hx
  · intro a b d2 o2 e h
    cases a with
    | nil => cases e; cases at0 h; exact (h1 rfl).1
    | cons c a => cases e; obtain ⟨o', h⟩ := inv h; exact hf.defined a b d2 o' rfl h
  · intro a b d2 o2 e h hq
    cases a with
    | nil => cases e; cases at0 h; exact absurd hq (h1 rfl).2
    | cons c a => cases e; obtain ⟨o', h⟩ := inv h; exact hf.quits a b d2 o' rfl h hq
  · intro a b e
    cases a with
    | nil => cases e; exact absurd rfl h2
    | cons c a => cases e; exact hf.eof a b rfl
  · intro a b d2 o2 e h
    cases a with
    | nil => cases e; cases at0 h; exact h3 rfl
    | cons c a => cases e; obtain ⟨o', h⟩ := inv h; exact hf.tabs a b d2 o' rfl h

theorem fit_edit {E : Env} {fuel : Nat} {d : Desk} {k : Key} {ks : List Key} (hk : Edits k) (hf : Fit E fuel { d with line := d.line.key k } ks) : Fit E fuel d (k :: ks) :=
  fit_cons (o := []) (.edits hk) (fun _ _ _ h => .edit hk h) (by rintro rfl; cases hk) (by rintro rfl; cases hk) (by rintro rfl; exact absurd hk not_edits_tab) hf

theorem fit_eof {E : Env} {fuel : Nat} {d : Desk} : Fit E fuel d [.eof] := by
  refine ⟨?_, ?_, ?_, ?_, ?_⟩
  · intro k hk; rw [List.mem_singleton] at hk; subst hk; exact .eof
  all_goals
    intro a b
    intros
    rename_i h
    cases a with
    | nil => first | rfl | simp_all
    | cons c a => simp_all

/-- An environment in which what is written of a `Bar` or of a complex number can be printed. -/
def two : Env := { one with bar := fun _ => bs!"bar", complex := fun _ => bs!"(1,0)" }

theorem reverse_two {s : Seat} (hs : s.place = .root) : Answer two s bs!"reverse abc" (s.recorded bs!"reverse abc") bs!"cba\n" ∧ ¬ Fails two s bs!"reverse abc" := by
  have hl : Lex.Line bs!"reverse abc" [bs!"reverse", bs!"abc"] := (split_iff _ _).1 rfl
  have hd : Does two (s.recorded bs!"reverse abc") (s.recorded bs!"reverse abc").place [bs!"reverse", bs!"abc"] (.says bs!"cba\n") := by
    rw [show (s.recorded bs!"reverse abc").place = .root from hs]
    exact .here (does := fun args x => ∃ a, args = [a] ∧ x = .says (a.reverse ++ bs!"\n")) (by simp [rows]) ⟨_, rfl, rfl⟩
  have hn : ¬ Bang bs!"reverse abc" := by
    rintro ⟨n, a, h, _⟩
    exact absurd (congrArg List.head? (line_same hl h)) (by simp)
  refine ⟨.line (.does hl hd (by simp)), fun h => ?_⟩
  cases h with
  | sum h => exact not_over hl hd (by simp) h
  | again h => exact hn ⟨_, h⟩
  | empty h => exact hn h

/-- What `rev` can be completed to. -/
theorem offers_rev {s : Seat} (hs : s.place = .root) : s.Offers bs!"rev" [bs!"reverse"] := by
  refine ⟨by simp, fun c => ?_⟩
  rw [List.mem_singleton]
  constructor
  rotate_left
  · rintro ⟨gap, typed, e, hg, h⟩
    obtain ⟨rfl, rfl⟩ := Completion.gap_unique hg (show Gap [] bs!"rev" from ⟨by simp, by decide⟩) (by simpa using e.symm)
    rcases h with ⟨h1, h2⟩ | ⟨ws, q, r, e, h1, h2, rfl⟩
    · simp only [List.mem_cons, List.not_mem_nil, or_false] at h1
      rcases h1 with rfl | rfl | rfl | rfl <;> exact absurd h2 (by decide)
    · rw [hs] at h1
      generalize hp : Place.root = p at h1
      generalize hl : bs!"rev" = l at h1
      cases h1 with
      | here =>
        subst hp hl
        rcases h2 with ⟨h3, h4⟩ | ⟨q, h3, rfl, h4, _⟩
        · have : ∀ gone col : Bool, ∀ e ∈ Seat.names ⟨.root, col, gone, false, ⟨0, 0, [], 0⟩⟩ .root, bs!"rev" <+: e → e = bs!"reverse" := by decide
          rw [this s.gone s.colour e h3 h4]; rfl
        · rcases h3 with (⟨_, rfl⟩ | ⟨h3, _⟩) | (⟨_, h3⟩ | ⟨_, h3⟩)
          · exact absurd h4 (by decide)
          all_goals cases h3
      | down h _ _ =>
        subst hp
        rcases h with ⟨_, rfl⟩ | ⟨h, _⟩
        · have := congrArg (List.head?) hl
          simp [Place.name] at this
        · cases h
      | up h _ _ _ =>
        subst hp
        rcases h with ⟨_, h⟩ | ⟨_, h⟩ <;> cases h
  · rintro rfl
    refine ⟨[], bs!"rev", rfl, ⟨by simp, by decide⟩, .inr ⟨[], .root, bs!"rev", bs!"reverse", by rw [hs]; exact .here, .inl ⟨?_, by decide⟩, rfl⟩⟩
    simp [Seat.names]

theorem no_quit {s : Seat} : ¬ Quits s bs!"reverse abc" := by
  have hl : Lex.Line bs!"reverse abc" [bs!"reverse", bs!"abc"] := (split_iff _ _).1 rfl
  intro h
  cases h with
  | exit h => exact absurd (congrArg List.head? (line_same hl h)) (by simp)
  | again h _ _ => obtain ⟨a, h, _⟩ := h; exact absurd (congrArg List.head? (line_same hl h)) (by simp)

/-- `reverse abc`, with a mistake, and with Tab; the same line again with the arrow; and Ctrl-D. -/
def pressed : List Key := [.ascii b%'r', .ascii b%'e', .ascii b%'v', .ascii b%'x', .backspace, .ascii 9, .ascii b%'a', .ascii b%'b', .ascii b%'c', .ret, .up, .ret, .eof]

theorem enter_reverse {d : Desk} {ks : List Key} (hp : d.seat.place = .root) (ht : d.text = bs!"reverse abc")
    (hf : Fit two 20 ⟨(d.seat.recorded bs!"reverse abc").prompted, ⟨[], []⟩, none⟩ ks) : Fit two 20 d (.ret :: ks) := by
  have hl : Lex.Line bs!"reverse abc" [bs!"reverse", bs!"abc"] := (split_iff _ _).1 rfl
  obtain ⟨a1, a2⟩ := reverse_two hp
  refine fit_cons (o := d.seat.echoes d.text ++ bs!"\r\n" ++ bs!"cba\n" ++ (d.seat.recorded bs!"reverse abc").prompt) .ret (fun a d' o h => .enter (by rw [ht]; exact a1) (.inr ⟨?_, rfl⟩) h) (fun _ => ⟨⟨?_, ?_⟩, ?_⟩) (by simp) (by simp) hf
  · rw [ht]; intro h; exact absurd (congrArg List.head? (line_same hl h)) (by simp)
  · rw [ht]; exact .plain (Script.harmless_of (by decide)) reverse_not_bang
  · rw [ht]; exact a2
  · rw [ht]; exact no_quit

/-- The hypothesis of the theorems is satisfiable, with keys of most kinds. -/
theorem rehearsal_pressed : Rehearsal two 20 (Desk.start true (Book.open 200 [])) pressed := by
  refine ⟨(by intro k a e h; cases h), fun v => ⟨show Printable bs!"bar" from (by unfold Printable; decide), show Printable bs!"(1,0)" from (by unfold Printable; decide)⟩, ⟨(by unfold Printable; decide), (by intro e he; cases he), (by intro x k h; cases h), (by decide)⟩, ?_, ?_⟩
  · refine fit_edit (.ascii (by decide)) (fit_edit (.ascii (by decide)) (fit_edit (.ascii (by decide)) (fit_edit (.ascii (by decide)) (fit_edit .backspace ?_))))
    refine fit_cons (o := []) .tab (fun _ _ _ h => .tabOne (c := bs!"reverse") (offers_rev rfl) h) (by simp) (by simp) (by intro _; decide) ?_
    refine fit_edit (.ascii (by decide)) (fit_edit (.ascii (by decide)) (fit_edit (.ascii (by decide)) ?_))
    refine enter_reverse rfl (by decide) ?_
    refine fit_cons (o := []) .up (fun _ _ _ h => .up h) (by simp) (by simp) (by simp) ?_
    exact enter_reverse (by decide +kernel) (by decide +kernel) fit_eof
  · exact ⟨pressed.dropLast, .eof, rfl, fun _ _ _ => .inl rfl⟩

/-- The characters of a text, and the keys after them. -/
theorem fit_text {E : Env} {fuel : Nat} {ks : List Key} : ∀ (t : Str) {d : Desk}, (∀ c ∈ t, printable c = true) → Fit E fuel { d with line := (t.map Key.ascii).foldl Zip.key d.line } ks → Fit E fuel d (t.map .ascii ++ ks)
  | [], _, _, h => h
  | c :: t, d, hc, h => fit_edit (.ascii (hc c (by simp))) (fit_text t (fun c hm => hc c (by simp [hm])) h)

theorem drafting_text {E : Env} {ks : List Key} {d' : Desk} {o : Str} : ∀ (t : Str) {d : Desk}, (∀ c ∈ t, printable c = true) → Drafting E { d with line := (t.map Key.ascii).foldl Zip.key d.line } ks d' o → Drafting E d (t.map .ascii ++ ks) d' o
  | [], _, _, h => h
  | c :: t, d, hc, h => .edit (.ascii (hc c (by simp))) (drafting_text t (fun c hm => hc c (by simp [hm])) h)

/-- The hypotheses of `C124_undefined` are satisfiable: a sum that is too large, after a mistake. -/
theorem too_large : ∃ d o, Fit two 20 (Desk.start true (Book.open 200 [])) (bs!"add 2147483647 1x".map .ascii ++ [.backspace]) ∧ Drafting two (Desk.start true (Book.open 200 [])) (bs!"add 2147483647 1x".map .ascii ++ [.backspace]) d o ∧
    Within two 21 d.seat d.text ∧ Fails two d.seat d.text := by
  have hl : Lex.Line bs!"add 2147483647 1" [bs!"add", bs!"2147483647", bs!"1"] := (split_iff _ _).1 rfl
  refine ⟨⟨Seat.start true (Book.open 200 []), ⟨bs!"add 2147483647 1".reverse, []⟩, none⟩, [], fit_text _ (by decide) (fit_edit .backspace fit_nil), drafting_text _ (by decide) (.edit .backspace .nil), ?_⟩
  refine ⟨.plain (line := bs!"add 2147483647 1") (by unfold Readable; decide) ?_, .sum (line := bs!"add 2147483647 1") ⟨_, hl, .here (does := sum2) (by simp [rows, Seat.recorded, Seat.start]) ⟨_, _, 2147483647, 1, rfl, ⟨?_, by unfold Small; decide⟩, ⟨?_, by unfold Small; decide⟩, .inr ⟨by unfold Small; decide, rfl⟩⟩⟩⟩
  · rintro ⟨n, a, h, _⟩
    exact absurd (congrArg List.head? (line_same hl h)) (by simp)
  · exact ⟨_, ⟨by decide, by unfold Number.Digit; decide⟩, .inl ⟨rfl, by decide⟩⟩
  · exact ⟨_, ⟨by decide, by unfold Number.Digit; decide⟩, .inl ⟨rfl, by decide⟩⟩

/-- These are the keys for what is typed. -/
example : (decode plat .first bs!"revx\x7f\tabc\n\x1b[A\n\x04").2 = pressed := by decide +kernel

/-- A character is typed, read, and handled; the arrow consists of three. -/
def press (cs : Str) : List (Program.Ev Bool) := [.kb .check] ++ cs.map (fun c => .kb (.arrive c)) ++ [.kb .ready] ++ cs.map (fun _ => .kb .getc) ++ [.kb .post, .task] ++ (if cs = bs!"\n" then [.done] else [])

/-- A line with a mistake, and that line again, with the cursor one to the left. -/
example : watch ([bs!"r", bs!"e", bs!"v", bs!"x", bs!"\x7f", bs!"e", bs!"r", bs!"s", bs!"e", bs!" ", bs!"a", bs!"\n", bs!"\x1b[A", bs!"\x1b[D"].flatMap press) =
    some (bs!"cli\x1b[0m> r\x1b[0me\x1b[0mv\x1b[0mx\x1b[0m\x08 \x08e\x1b[0mr\x1b[0ms\x1b[0me\x1b[0m \x1b[0ma\x1b[0m\r\na\ncli\x1b[0m> reverse a\x1b[0m\x08", .run) := by
  decide +kernel

/-! ### What earlier sessions left -/

/-- The program with a terminal, and with a line in the history in which Ctrl-G had been typed twice. -/
def rung : Option (Local.St St Unit Bool) :=
  match Local.create (app two (fun _ _ => ()) (fun _ => [bs!"x\x07\x07"]) false) (fun _ => false) true 200 (cli ()) ⟨⟨false, true, false⟩, []⟩ with
  | .ok (l, none) => some l
  | _ => none

/-- What it writes when the arrows are pressed. -/
def rang : Option Str :=
  match rung with
  | none => none
  | some l =>
    match Program.run (app two (fun _ _ => ()) (fun _ => [bs!"x\x07\x07"]) false) (·.stopped) 2 plat (fun _ => false) (press bs!"\x1b[A" ++ press bs!"\x1b[B") ⟨l, .run⟩ with
    | .ok (some (s, none)) => some s.loc.proc.w.io.out
    | _ => none

theorem rang_writes : rang = some bs!"cli\x1b[0m> x\x07\x07\x1b[0m\x08\x08\x08\x1b[0m   \x08\x08\x08" := by decide +kernel

/-- **C124** (refuted) With a character in the history that cannot be printed, the arrows delete the prompt: the screen is not what it should be for any of the keys pressed. -/
theorem C124_refuted : ∃ (l : Local.St St Unit Bool) (s : Program.St St Unit Bool) (es : List (Program.Ev Bool)),
    Local.create (app two (fun _ _ => ()) (fun _ => [bs!"x\x07\x07"]) false) (fun _ => false) true 200 (cli ()) ⟨⟨false, true, false⟩, []⟩ = .ok (l, none) ∧ (∀ e ∈ es, Props.Calm e) ∧
    Program.run (app two (fun _ _ => ()) (fun _ => [bs!"x\x07\x07"]) false) (·.stopped) 2 plat (fun _ => false) es ⟨l, .run⟩ = .ok (some (s, none)) ∧ (decode plat .first (Program.typed es)).2 = [.up, .down] ∧
    ¬ ∃ a o, a <+: [.up, .down] ∧ Take two false (Desk.start true (Book.open 200 [bs!"x\x07\x07"])) a o ∧
      ∀ base R, (scr base R 0 [] 0).run s.loc.proc.w.io.out = (scr base R 0 [] 0).run ((Seat.start true (Book.open 200 [bs!"x\x07\x07"])).prompt ++ o) := by
  have h := rang_writes
  unfold rang at h
  split at h
  · cases h
  · rename_i l hl
    split at h
    · rename_i s hs
      have hl' : Local.create (app two (fun _ _ => ()) (fun _ => [bs!"x\x07\x07"]) false) (fun _ => false) true 200 (cli ()) ⟨⟨false, true, false⟩, []⟩ = .ok (l, none) := by
        unfold rung at hl
        split at hl
        · rename_i l' e; cases hl; exact e
        · cases hl
      refine ⟨l, s, _, hl', ?_, hs, by decide +kernel, ?_⟩
      · intro e he
        simp only [press, List.mem_append, List.mem_cons, List.map_cons, List.map_nil, List.not_mem_nil, or_false] at he
        rcases he with he | he <;> simp [or_assoc] at he <;> (rcases he with rfl | rfl | rfl | rfl | rfl | rfl | rfl | rfl) <;> trivial
      · rintro ⟨a, o, ha, ht, he⟩
        have hc := congrArg (fun x : Screen => x.cell 0 3) (he (fun _ _ => b%' ') 0)
        simp only [Option.some.injEq] at h
        rw [h] at hc
        have ha' : a = [] ∨ a = [.up] ∨ a = [.up, .down] := by
          obtain ⟨t, ht⟩ := ha
          match a, t, ht with
          | [], _, _ => exact .inl rfl
          | [x], _, ht => cases ht; exact .inr (.inl rfl)
          | [x, y], _, ht => cases ht; exact .inr (.inr rfl)
        rcases ha' with rfl | rfl | rfl
        · cases C124_spec ht (.typing .nil)
          revert hc; decide +kernel
        · cases C124_spec ht (.typing (.up .nil))
          revert hc; decide +kernel
        · cases C124_spec ht (.typing (.up (.down .nil)))
          revert hc; decide +kernel
    · cases h

end Verif.Showcase
