import Verif.Proofs.Sheets

set_option linter.unusedSimpArgs false

/-!
# C136: editing lines in the program `complete` of the plugin manager, from the keyboard to the screen
-/

namespace Verif.Workbench
open Spec
open Terminal (Key)
open Keyboard (decode)
open Props (Moves InTurn inTurn_run inTurn_create program_rest plat)
open Processor
open Plugins (Plug Item)
open Plugged (PWorld)
open Showcase (Book Bang Readable Recalls Edits Common leftwards wipe settled sorted_same common_same not_edits_tab Usual GoesKeys keys_handled keys_run)
open Script (line_same)

variable {α : Type}

/-! ### The specification is unambiguous -/

theorem offers_same {s : Desk} {l : Str} {a b : List Str} (ha : s.Offers l a) (hb : s.Offers l b) : a = b := sorted_same ha.1 hb.1 fun c => by rw [ha.2, hb.2]

/-- Where the keys lead to, and what they show, is determined. -/
theorem drafting_same {f : Bool} {d a b : Sheet} {ks : List Key} {o o' : Str} (h1 : Drafting f d ks a o) (h2 : Drafting f d ks b o') : a = b ∧ o = o' := by
  induction h1 generalizing b o' with
  | nil => cases h2; exact ⟨rfl, rfl⟩
  | edit hk _ ih =>
    cases h2 with
    | edit _ h => exact ih h
    | up h | down h | clear h => cases hk
    | tabNone _ _ | tabOne _ _ | tabMore _ _ _ _ | tabList _ _ _ _ => exact absurd hk not_edits_tab
    | enter _ _ _ => cases hk
  | up _ ih =>
    cases h2 with
    | edit hk _ => cases hk
    | up h => exact ih h
  | down _ ih =>
    cases h2 with
    | edit hk _ => cases hk
    | down h => exact ih h
  | clear _ ih =>
    cases h2 with
    | edit hk _ => cases hk
    | clear h => obtain ⟨e1, e2⟩ := ih h; exact ⟨e1, by rw [e2]⟩
  | tabNone c1 _ ih =>
    cases h2 with
    | edit hk _ => exact absurd hk not_edits_tab
    | tabNone _ h => exact ih h
    | tabOne c2 _ | tabMore c2 _ _ _ | tabList c2 _ _ _ => cases offers_same c1 c2
  | tabOne c1 _ ih =>
    cases h2 with
    | edit hk _ => exact absurd hk not_edits_tab
    | tabOne c2 h => cases offers_same c1 c2; exact ih h
    | tabNone c2 _ | tabMore c2 _ _ _ | tabList c2 _ _ _ => cases offers_same c1 c2
  | tabMore c1 p1 l1 _ ih =>
    cases h2 with
    | edit hk _ => exact absurd hk not_edits_tab
    | tabMore c2 p2 _ h => cases offers_same c1 c2; cases common_same p1 p2; exact ih h
    | tabList c2 p2 l2 _ => cases offers_same c1 c2; cases common_same p1 p2; omega
    | tabNone c2 _ | tabOne c2 _ => cases offers_same c1 c2
  | tabList c1 p1 l1 _ ih =>
    cases h2 with
    | edit hk _ => exact absurd hk not_edits_tab
    | tabList c2 p2 _ h => cases offers_same c1 c2; obtain ⟨e1, e2⟩ := ih h; exact ⟨e1, by rw [e2]⟩
    | tabMore c2 p2 l2 _ => cases offers_same c1 c2; cases common_same p1 p2; omega
    | tabNone c2 _ | tabOne c2 _ => cases offers_same c1 c2
  | enter a1 b1 _ ih =>
    cases h2 with
    | edit hk _ => cases hk
    | enter a2 b2 h =>
      obtain ⟨rfl, rfl⟩ := answer_unique a1 a2
      have : ∀ {x y : Option (Str × Nat)} {d : Sheet}, (Lex.Line d.text [] ∧ x = d.back) ∨ (¬ Lex.Line d.text [] ∧ x = none) → (Lex.Line d.text [] ∧ y = d.back) ∨ (¬ Lex.Line d.text [] ∧ y = none) → x = y := by
        rintro x y d (⟨u, rfl⟩ | ⟨u, rfl⟩) (⟨v, rfl⟩ | ⟨v, rfl⟩)
        · rfl
        · exact absurd u v
        · exact absurd v u
        · rfl
      cases this b1 b2
      obtain ⟨e1, e2⟩ := ih h
      exact ⟨e1, by rw [e2]⟩

theorem drafting_split {f : Bool} : ∀ {a : List Key} {d d2 : Sheet} {b : List Key} {o : Str}, Drafting f d (a ++ b) d2 o → ∃ d1 o1 o2, Drafting f d a d1 o1 ∧ Drafting f d1 b d2 o2 ∧ o = o1 ++ o2 := by
  intro a
  induction a with
  | nil => intro d d2 b o h; exact ⟨d, [], o, .nil, h, rfl⟩
  | cons k a ih =>
    intro d d2 b o h
    rw [List.cons_append] at h
    cases h with
    | edit hk h => obtain ⟨d1, o1, o2, h1, h2, rfl⟩ := ih h; exact ⟨d1, o1, o2, .edit hk h1, h2, rfl⟩
    | up h => obtain ⟨d1, o1, o2, h1, h2, rfl⟩ := ih h; exact ⟨d1, o1, o2, .up h1, h2, rfl⟩
    | down h => obtain ⟨d1, o1, o2, h1, h2, rfl⟩ := ih h; exact ⟨d1, o1, o2, .down h1, h2, rfl⟩
    | clear h => obtain ⟨d1, o1, o2, h1, h2, rfl⟩ := ih h; exact ⟨d1, _, o2, .clear h1, h2, by simp⟩
    | tabNone c h => obtain ⟨d1, o1, o2, h1, h2, rfl⟩ := ih h; exact ⟨d1, o1, o2, .tabNone c h1, h2, rfl⟩
    | tabOne c h => obtain ⟨d1, o1, o2, h1, h2, rfl⟩ := ih h; exact ⟨d1, o1, o2, .tabOne c h1, h2, rfl⟩
    | tabMore c p l h => obtain ⟨d1, o1, o2, h1, h2, rfl⟩ := ih h; exact ⟨d1, o1, o2, .tabMore c p l h1, h2, rfl⟩
    | tabList c p l h => obtain ⟨d1, o1, o2, h1, h2, rfl⟩ := ih h; exact ⟨d1, _, o2, .tabList c p l h1, h2, by simp⟩
    | enter c p h => obtain ⟨d1, o1, o2, h1, h2, rfl⟩ := ih h; exact ⟨d1, _, o2, .enter c p h1, h2, by simp⟩

/-- A session that is over does not go on. -/
theorem over_not_on {f : Bool} {d d' : Sheet} {ks : List Key} {o o' : Str} (h1 : Over f d ks o) (h2 : Drafting f d ks d' o') : False := by
  cases h1 with
  | exit h q =>
    obtain ⟨d1, _, _, g1, g2, _⟩ := drafting_split h2
    obtain ⟨rfl, _⟩ := drafting_same h g1
    cases g2 with
    | edit hk _ => cases hk
    | enter a _ _ => exact answer_no_quit q a
  | eof h =>
    obtain ⟨d1, _, _, _, g2, _⟩ := drafting_split h2
    cases g2 with
    | edit hk _ => cases hk

/-- **C136** What should be shown is determined by the keys. -/
theorem C136_spec {f : Bool} {d : Sheet} {ks : List Key} {o o' : Str} (h1 : Take f d ks o) (h2 : Take f d ks o') : o = o' := by
  cases h1 with
  | typing h1 =>
    cases h2 with
    | typing h2 => obtain ⟨rfl, rfl⟩ := drafting_same h1 h2; rfl
    | over h2 => exact (over_not_on h2 h1).elim
  | over h1 =>
    cases h2 with
    | typing h2 => exact (over_not_on h1 h2).elim
    | over h2 =>
      generalize hk : ks = ks' at h2
      cases h1 with
      | exit h1 q1 =>
        cases h2 with
        | exit h2 q2 =>
          obtain ⟨rfl, _⟩ := List.append_inj' hk rfl
          obtain ⟨rfl, rfl⟩ := drafting_same h1 h2; rfl
        | eof h2 => obtain ⟨_, e⟩ := List.append_inj' hk rfl; cases e
      | eof h1 =>
        cases h2 with
        | exit h2 _ => obtain ⟨_, e⟩ := List.append_inj' hk rfl; cases e
        | eof h2 =>
          obtain ⟨rfl, _⟩ := List.append_inj' hk rfl
          obtain ⟨rfl, rfl⟩ := drafting_same h1 h2; rfl

/-! ### The session -/

/-- Keys for which the behaviour is defined, as for C113; the last one may end the session, and no other does. -/
structure Fit (pf : Platform) (f : Bool) (fuel : Nat) (d : Sheet) (ks : List Key) : Prop where
  keys : ∀ k ∈ ks, Usual k
  defined : ∀ a b d' o, ks = a ++ .ret :: b → Drafting f d a d' o → Within pf (fuel + 1) d'.desk d'.text ∧ ¬ Fails f d'.desk d'.text
  quits : ∀ a b d' o, ks = a ++ .ret :: b → Drafting f d a d' o → Quits d'.desk d'.text → b = []
  eof : ∀ a b, ks = a ++ .eof :: b → b = []
  /-- the stack suffices -/
  tabs : ∀ a b d' o, ks = a ++ .ascii 9 :: b → Drafting f d a d' o → 2 * d'.text.length ≤ fuel

theorem fit_step {pf : Platform} {f : Bool} {fuel : Nat} {d d' : Sheet} {k : Key} {ks : List Key} {o : Str} (h : Fit pf f fuel d (k :: ks)) (hs : ∀ ks d'' o', Drafting f d' ks d'' o' → Drafting f d (k :: ks) d'' (o ++ o')) : Fit pf f fuel d' ks := by
  refine ⟨fun x hx => h.keys x (by simp [hx]), ?_, ?_, ?_, ?_⟩
  · rintro a b d2 o2 rfl hd; exact h.defined (k :: a) b d2 _ rfl (hs _ _ _ hd)
  · rintro a b d2 o2 rfl hd; exact h.quits (k :: a) b d2 _ rfl (hs _ _ _ hd)
  · rintro a b rfl; exact h.eof (k :: a) b rfl
  · rintro a b d2 o2 rfl hd; exact h.tabs (k :: a) b d2 _ rfl (hs _ _ _ hd)

theorem fit_prefix {pf : Platform} {f : Bool} {fuel : Nat} {d : Sheet} {a b : List Key} (h : Fit pf f fuel d (a ++ b)) : Fit pf f fuel d a := by
  refine ⟨fun x hx => h.keys x (by simp [hx]), ?_, ?_, ?_, ?_⟩
  · rintro x y d' o rfl hd; exact h.defined x (y ++ b) d' o (by simp) hd
  · rintro x y d' o rfl hd hq; exact (List.append_eq_nil_iff.1 (h.quits x (y ++ b) d' o (by simp) hd hq)).1
  · rintro x y rfl; exact (List.append_eq_nil_iff.1 (h.eof x (y ++ b) (by simp))).1
  · rintro x y d' o rfl hd; exact h.tabs x (y ++ b) d' o (by simp) hd

/-- The state after some keys. -/
def Got (f : Bool) (s0 : Screen) (base : Nat → Nat → Byte) (R c : Nat) (d : Sheet) (ks : List Key) (q : PProc) : Prop :=
  (∃ d' o base' R' c', Drafting f d ks d' o ∧ On d' q ∧ Tidy d' ∧ (scr base R c [] 0).run o = scr base' R' c' [] 0 ∧ Sees s0 base' R' c' d' q.w.io) ∨
  (∃ o, Over f d ks o ∧ q.w.exit = true ∧ q.w.app.ub = false ∧ q.w.app.stopped = true ∧ s0.run q.w.io.out = (scr base R c [] 0).run o)

theorem over_step {f : Bool} {d d' : Sheet} {k : Key} {ks : List Key} {o o' : Str} (hs : ∀ ks d'' o', Drafting f d' ks d'' o' → Drafting f d (k :: ks) d'' (o ++ o')) (h : Over f d' ks o') : Over f d (k :: ks) (o ++ o') := by
  cases h with
  | exit h q =>
    have := Over.exit (hs _ _ _ h) q
    simpa using this
  | eof h =>
    have := Over.eof (hs _ _ _ h)
    simpa using this

theorem drafts (pf : Platform) (f : Bool) (fuel : Nat) (s0 : Screen) : ∀ (ks : List Key) (base : Nat → Nat → Byte) (R c : Nat) (d : Sheet) (p : PProc),
    Fit pf f fuel d ks → On d p → Tidy d → Sees s0 base R c d p.w.io → ∃ q, Processor.run (Plugins.app pf f) (fuel + 2) ks p = .ok (q, none) ∧ Got f s0 base R c d ks q
  | [], base, R, c, d, p, _, ho, ht, hs => ⟨p, rfl, .inl ⟨d, [], base, R, c, .nil, ho, ht, rfl, hs⟩⟩
  | k :: ks, base, R, c, d, p, hf, ho, ht, hs => by
    have go : Steps f (Plugins.app pf f) (fuel + 2) s0 base R c d p k → ∃ q, Processor.run (Plugins.app pf f) (fuel + 2) (k :: ks) p = .ok (q, none) ∧ Got f s0 base R c d (k :: ks) q := by
      rintro ⟨q, d', o, h1, h2, h3, h4, base', R', c', h5, h6⟩
      obtain ⟨q', g1, g2⟩ := drafts pf f fuel s0 ks base' R' c' d' q (fit_step hf h4) h2 h3 h6
      refine ⟨q', by simp only [Processor.run, h1, bind, Except.bind]; exact g1, ?_⟩
      rcases g2 with ⟨d2, o2, b2, R2, c2, e1, e2, e3, e4, e5⟩ | ⟨o2, e1, e2, e3, e3', e4⟩
      · exact .inl ⟨d2, o ++ o2, b2, R2, c2, h4 _ _ _ e1, e2, e3, by rw [run_append, h5, e4], e5⟩
      · exact .inr ⟨o ++ o2, over_step h4 e1, e2, e3, e3', by rw [run_append, h5, e4]⟩
    have fin : ∀ {o : Str}, ks = [] → Over f d [k] o → Ends (Plugins.app pf f) (fuel + 2) s0 base R c p k o → ∃ q, Processor.run (Plugins.app pf f) (fuel + 2) (k :: ks) p = .ok (q, none) ∧ Got f s0 base R c d (k :: ks) q := by
      rintro o rfl h1 ⟨q, h2, h3, h4, h5, h6⟩
      exact ⟨q, by simp only [Processor.run, h2, bind, Except.bind], .inr ⟨o, h1, h3, h4, h5, h6⟩⟩
    cases hf.keys k (by simp) with
    | edits hk =>
      obtain ⟨q, h1, h2, h3, h4⟩ := edit_step (Plugins.app pf f) (fuel + 2) hk ho ht hs
      exact go ⟨q, _, [], h1, h2, h3, fun _ _ _ h => .edit hk h, base, R, c, rfl, h4⟩
    | up =>
      obtain ⟨q, h1, h2, h3, h4⟩ := arrow_up (Plugins.app pf f) (fuel + 2) ho ht hs
      exact go ⟨q, _, [], h1, h2, h3, fun _ _ _ h => .up h, base, R, c, rfl, h4⟩
    | down =>
      obtain ⟨q, h1, h2, h3, h4⟩ := arrow_down (Plugins.app pf f) (fuel + 2) ho ht hs
      exact go ⟨q, _, [], h1, h2, h3, fun _ _ _ h => .down h, base, R, c, rfl, h4⟩
    | clear =>
      obtain ⟨q, h1, h2, h3, b, R', c', h4, h5⟩ := clear_step (Plugins.app pf f) (fuel + 2) ho ht hs
      exact go ⟨q, _, _, h1, h2, h3, fun _ _ _ h => .clear h, b, R', c', h4, h5⟩
    | tab => exact go (tab_step f (Plugins.app pf f) (fuel + 2) (by have := hf.tabs [] ks d [] rfl .nil; omega) ho ht hs)
    | ret =>
      obtain ⟨h1, h3⟩ := hf.defined [] ks d [] rfl .nil
      rcases enter_step pf f fuel h1 h3 ho ht hs with ⟨_, h⟩ | ⟨h4, h⟩
      · exact go h
      · exact fin (hf.quits [] ks d [] rfl .nil h4) (by simpa using Over.exit (f := f) (.nil (d := d)) h4) h
    | eof => exact fin (hf.eof [] ks rfl) (by simpa using Over.eof (f := f) (.nil (d := d))) (eof_step pf f (fuel + 2) ho ht hs)

/-- What is shown is what should be. -/
theorem got_take {f : Bool} {s0 : Screen} {base : Nat → Nat → Byte} {R c : Nat} {d : Sheet} {ks : List Key} {q : PProc} (h : Got f s0 base R c d ks q) :
    ∃ o, Take f d ks o ∧ s0.run q.w.io.out = (scr base R c [] 0).run o ∧ q.w.app.ub = false ∧ (q.w.exit = true ↔ ∃ o', Over f d ks o') ∧ (q.w.app.stopped = true ↔ ∃ o', Over f d ks o') := by
  rcases h with ⟨d', o, b, R', c', h1, h2, h3, h4, h5⟩ | ⟨o, h1, h2, h3, h3', h4⟩
  · have e : (scr b R' c' [] 0).run (d'.desk.echoes d'.text ++ leftwards d'.line.after.length) = scr b R' c' d'.text d'.line.before.length := line_run _ _ _ _ _ h3.line
    have hx : q.w.exit = false := h2.place.exit
    have ha : q.w.app.ub = false ∧ q.w.app.stopped = false := ⟨h2.place.ub, h2.place.stopped⟩
    refine ⟨_, .typing h1, ?_, ha.1, ?_, ?_⟩
    · rw [List.append_assoc, run_append, h4, e]; exact h5
    · rw [hx]; exact ⟨fun h => (by cases h), fun ⟨_, h⟩ => (over_not_on h h1).elim⟩
    · rw [ha.2]; exact ⟨fun h => (by cases h), fun ⟨_, h⟩ => (over_not_on h h1).elim⟩
  · exact ⟨o, .over h1, h4, h3, by rw [h2]; exact ⟨fun _ => ⟨o, h1⟩, fun _ => rfl⟩, by rw [h3']; exact ⟨fun _ => ⟨o, h1⟩, fun _ => rfl⟩⟩

/-! ### The program -/

/-- Before anything is typed. -/
def Sheet.start (tty : Bool) : Sheet := ⟨Desk.start tty, ⟨[], []⟩, none⟩

/-- Keys of which the last one ends the session and no other does, for which the behaviour is defined. -/
structure Rehearsal (pf : Platform) (f : Bool) (fuel : Nat) (d : Sheet) (ks : List Key) : Prop where
  fit : Fit pf f fuel d ks
  last : ∃ a k, ks = a ++ [k] ∧ ∀ d' o, Drafting f d a d' o → k = .eof ∨ (k = .ret ∧ Quits d'.desk d'.text)

theorem over_whole {pf : Platform} {f : Bool} {fuel : Nat} {d : Sheet} {a ks : List Key} {o : Str} (hf : Fit pf f fuel d ks) (ha : a <+: ks) (ho : Over f d a o) : a = ks := by
  obtain ⟨t, rfl⟩ := ha
  cases ho with
  | exit h q =>
    have := hf.quits _ t _ _ (by simp) h q
    rw [this]; simp
  | eof h =>
    have := hf.eof _ t (List.append_assoc _ _ _)
    rw [this]; simp

section
variable (pf : Platform) (f : Bool)

theorem start_tidy (tty : Bool) : Tidy (Sheet.start tty) := ⟨(by intro c hc; cases hc), (by intro c hc; cases hc), (by intro x k h; cases h), (by show 1 ≤ 200; decide)⟩

theorem rehearsal_run {tty : Bool} {fuel : Nat} {ks : List Key} (h : Rehearsal pf f fuel (Sheet.start tty) ks) {w : PWorld} (h2 : At (Desk.start tty) w) (h3 : w.io.out = (Desk.start tty).prompt) (a : List Key) (ha : a <+: ks) :
    ∃ q o, Processor.run (Plugins.app pf f) (fuel + 2) a ⟨w, ⟨[], 0⟩, true⟩ = .ok (q, none) ∧ Take f (Sheet.start tty) a o ∧
      (∀ base R, (scr base R 0 [] 0).run q.w.io.out = (scr base R 0 [] 0).run ((Desk.start tty).prompt ++ o)) ∧
      (q.w.app.stopped = true ↔ a = ks) ∧ q.w.app.ub = false ∧ (q.w.exit = true ↔ a = ks) := by
  have hm : w.hist.mode = .inserting := h2.kept.mode
  have hset : settled w.hist = w.hist := by simp only [settled, hm]
  have hon : On (Sheet.start tty) (⟨w, ⟨[], 0⟩, true⟩ : PProc) :=
    ⟨by simp only [hset]; exact h2, h2.hist, hm, rfl, rfl, by cases tty <;> rfl⟩
  have go : ∀ base R a, a <+: ks → ∃ q base' c, Processor.run (Plugins.app pf f) (fuel + 2) a ⟨w, ⟨[], 0⟩, true⟩ = .ok (q, none) ∧ (scr base R 0 [] 0).run (Desk.start tty).prompt = scr base' R c [] 0 ∧
      Got f (scr base R 0 [] 0) base' R c (Sheet.start tty) a q := by
    intro base R a ha
    obtain ⟨base', c, hp⟩ := prompt_run (Desk.start tty) base R
    obtain ⟨t, rfl⟩ := ha
    obtain ⟨q, g1, g2⟩ := drafts pf f fuel (scr base R 0 [] 0) a base' R c _ ⟨w, ⟨[], 0⟩, true⟩ (fit_prefix h.fit) hon (start_tidy tty) (by
      simp only [Sees, h3, hp, Sheet.start, Sheet.text, Zip.text, List.reverse_nil, List.append_nil, List.length_nil])
    exact ⟨q, base', c, g1, hp, g2⟩
  have hover : (∃ o, Over f (Sheet.start tty) a o) ↔ a = ks := by
    constructor
    · rintro ⟨o, ho⟩; exact over_whole h.fit ha ho
    · rintro rfl
      obtain ⟨b, k, rfl, hl⟩ := h.last
      obtain ⟨q, base', c, _, _, g⟩ := go (fun _ _ => 0) 0 b (List.prefix_append _ _)
      rcases g with ⟨d', o, _, _, _, hd, _⟩ | ⟨o, ho, _⟩
      · rcases hl d' o hd with rfl | ⟨rfl, hq⟩
        · exact ⟨_, .eof hd⟩
        · exact ⟨_, .exit hd hq⟩
      · have := congrArg List.length (over_whole h.fit (List.prefix_append _ _) ho)
        simp at this
  obtain ⟨q, base', c, g1, g2, g3⟩ := go (fun _ _ => 0) 0 a ha
  obtain ⟨o, e1, _, e3, e4, e5⟩ := got_take g3
  refine ⟨q, o, g1, e1, ?_, by rw [← hover]; exact e5, e3, by rw [← hover]; exact e4⟩
  intro base R
  obtain ⟨q', b2, c2, k1, k2, k3⟩ := go base R a ha
  rw [g1] at k1
  cases k1
  obtain ⟨o2, f1, f2, _⟩ := got_take k3
  rw [C136_spec e1 f1, run_append, k2]
  exact f2

/-- **C136** A line whose behaviour should be undefined leads to undefined behaviour in the model when Enter is pressed, however it has been typed, edited, recalled or completed: that of the program, or that of the plugin (which is marked in its state). -/
theorem C136_undefined {tty : Bool} {fuel : Nat} {manual : α → α} {tt : α} {l : Local.St Plugins.St Storage.Volatile α}
    (h0 : Local.create (Plugins.app pf f) manual tt 200 (Plugins.boot ⟨false, false, false⟩) ⟨⟨false, tty, false⟩, []⟩ = .ok (l, none)) (ks : List Key) (d : Sheet) (o : Str)
    (hk : Fit pf f fuel (Sheet.start tty) ks) (hd : Drafting f (Sheet.start tty) ks d o) (hw : Within pf (fuel + 1) d.desk d.text) (hf : Fails f d.desk d.text) :
    (∃ u, Processor.run (Plugins.app pf f) (fuel + 2) (ks ++ [.ret]) l.proc = .error (.ub u)) ∨
      ∃ q, Processor.run (Plugins.app pf f) (fuel + 2) (ks ++ [.ret]) l.proc = .ok (q, none) ∧ q.w.app.ub = true := by
  obtain ⟨w, h1, h2, h3⟩ := created h0
  have hm : w.hist.mode = .inserting := h2.kept.mode
  have hset : settled w.hist = w.hist := by simp only [settled, hm]
  have hon : On (Sheet.start tty) (⟨w, ⟨[], 0⟩, true⟩ : PProc) :=
    ⟨by simp only [hset]; exact h2, h2.hist, hm, rfl, rfl, by cases tty <;> rfl⟩
  obtain ⟨base', c, hp⟩ := prompt_run (Desk.start tty) (fun _ _ => 0) 0
  obtain ⟨q, g1, g2⟩ := drafts pf f fuel (scr (fun _ _ => 0) 0 0 [] 0) ks base' 0 c _ ⟨w, ⟨[], 0⟩, true⟩ hk hon (start_tidy tty) (by
    simp only [Sees, h3, hp, Sheet.start, Sheet.text, Zip.text, List.reverse_nil, List.append_nil, List.length_nil])
  rw [Props.proc_run_append, h1, g1]
  rcases g2 with ⟨d', o', _, _, _, e1, e2, _⟩ | ⟨_, e1, _⟩
  · obtain ⟨rfl, _⟩ := drafting_same hd e1
    rcases fail_step pf f fuel hw hf e2 with ⟨u, e⟩ | ⟨q', e, hu⟩
    · exact .inl ⟨u, by simp only [Processor.run, e, bind, Except.bind]⟩
    · exact .inr ⟨q', by simp only [Processor.run, e, bind, Except.bind], hu⟩
  · exact (over_not_on e1 hd).elim

theorem rehearsal_at {tty : Bool} {fuel : Nat} {ks : List Key} (h : Rehearsal pf f fuel (Sheet.start tty) ks) {manual : α → α} {tt : α} {l : Local.St Plugins.St Storage.Volatile α}
    (h0 : Local.create (Plugins.app pf f) manual tt 200 (Plugins.boot ⟨false, false, false⟩) ⟨⟨false, tty, false⟩, []⟩ = .ok (l, none)) (a : List Key) (ha : a <+: ks) :
    ∃ q o, Processor.run (Plugins.app pf f) (fuel + 2) a l.proc = .ok (q, none) ∧ Take f (Sheet.start tty) a o ∧
      (∀ base R, (scr base R 0 [] 0).run q.w.io.out = (scr base R 0 [] 0).run ((Desk.start tty).prompt ++ o)) ∧
      (q.w.app.stopped = true ↔ a = ks) ∧ q.w.app.ub = false ∧ (q.w.exit = true ↔ a = ks) := by
  obtain ⟨w, h1, h2, h3⟩ := created h0
  obtain ⟨q, o, g1, g2, g3, g4, g5⟩ := rehearsal_run pf f h h2 h3 a ha
  exact ⟨q, o, by rw [h1]; exact g1, g2, g3, g4, g5⟩

theorem rehearsal_goes {tty : Bool} {fuel : Nat} {ks : List Key} (h : Rehearsal pf f fuel (Sheet.start tty) ks) {manual : α → α} {tt : α} {l : Local.St Plugins.St Storage.Volatile α}
    (h0 : Local.create (Plugins.app pf f) manual tt 200 (Plugins.boot ⟨false, false, false⟩) ⟨⟨false, tty, false⟩, []⟩ = .ok (l, none)) : GoesKeys (Plugins.app pf f) (·.stopped) (fuel + 2) l.proc ks := by
  intro a ha
  obtain ⟨q, o, g1, _, _, g4, _⟩ := rehearsal_at pf f h h0 a ha
  exact ⟨q, g1, g4⟩

/-- **C136** (partial) At any time, whatever the order in which the threads take their steps and the keys are pressed: the screen of the program `complete` looks as if the prompt, the lines as they have been entered, the answers, and the line as it is
    now had been written without a mistake, for some of the keys pressed, those that have been handled; and the cursor is where it should be. Missing: as for C113, lines for which the behaviour is undefined; characters that cannot be printed. -/
theorem C136_screen_partial (fuel : Nat) (p : Platform) (manual : α → α) (tt : α) (tty : Bool) (l : Local.St Plugins.St Storage.Volatile α) (s : Program.St Plugins.St Storage.Volatile α) (es : List (Program.Ev α)) (ks rest : List Key)
    (h : Rehearsal pf f fuel (Sheet.start tty) ks) (h0 : Local.create (Plugins.app pf f) manual tt 200 (Plugins.boot ⟨false, false, false⟩) ⟨⟨false, tty, false⟩, []⟩ = .ok (l, none)) (hc : ∀ e ∈ es, Props.Calm e)
    (ht : (decode p .first (Props.Program.typed es)).2 <+: ks ++ rest) (hr : Program.run (Plugins.app pf f) (·.stopped) (fuel + 2) p manual es ⟨l, .run⟩ = .ok (some (s, none))) :
    ∃ a o, a <+: (decode p .first (Props.Program.typed es)).2 ∧ a <+: ks ∧ Take f (Sheet.start tty) a o ∧
      (∀ base R, (scr base R 0 [] 0).run s.loc.proc.w.io.out = (scr base R 0 [] 0).run ((Desk.start tty).prompt ++ o)) ∧
      (s.phase ≠ .run → a = ks) ∧ s.loc.proc.w.app.ub = false ∧ (s.loc.proc.w.exit = true ↔ a = ks) := by
  have g := inTurn_run es (inTurn_create (stopped := (·.stopped)) (fuel := fuel + 2) (p := p) h0) hc hr
  rw [List.nil_append] at g
  obtain ⟨k1, k2, k3, k4⟩ := keys_handled ht (rehearsal_goes pf f h h0) g
  obtain ⟨q, o, g1, g2, g3, g4, g5, g6⟩ := rehearsal_at pf f h h0 _ (List.take_prefix s.loc.handled _)
  rw [k3] at g1
  cases g1
  refine ⟨_, o, ?_, List.take_prefix _ _, g2, g3, fun hp => g4.1 (g.after hp).1, g5, g6⟩
  obtain ⟨r, f1, f2⟩ := g.typing.read
  rw [← k2, f1]
  exact (List.take_prefix _ _).trans (Props.decoded_prefix f2)

/-- **C136** (partial) Nothing goes wrong: the behaviour is defined, and no exception leaves the scheduler. -/
theorem C136_defined_partial (fuel : Nat) (p : Platform) (manual : α → α) (tt : α) (tty : Bool) (l : Local.St Plugins.St Storage.Volatile α) (es : List (Program.Ev α)) (ks rest : List Key)
    (h : Rehearsal pf f fuel (Sheet.start tty) ks) (h0 : Local.create (Plugins.app pf f) manual tt 200 (Plugins.boot ⟨false, false, false⟩) ⟨⟨false, tty, false⟩, []⟩ = .ok (l, none)) (hc : ∀ e ∈ es, Props.Calm e)
    (ht : (decode p .first (Props.Program.typed es)).2 <+: ks ++ rest) :
    Program.run (Plugins.app pf f) (·.stopped) (fuel + 2) p manual es ⟨l, .run⟩ = .ok none ∨ ∃ s, Program.run (Plugins.app pf f) (·.stopped) (fuel + 2) p manual es ⟨l, .run⟩ = .ok (some (s, none)) :=
  keys_run (rehearsal_goes pf f h h0) es (inTurn_create h0) hc (by rw [List.nil_append]; exact ht)

/-- **C136** (partial) When neither thread can do anything more (which is so after a bounded number of steps, `C90_bounded`): the program waits for input, and the screen shows what belongs to all the keys pressed; or it is over, and the screen shows
    what belongs to the keys up to the end of the session; or this is so but for the end of the program, which waits for the rest of half an escape sequence that has been typed after the end of the session. -/
theorem C136_rest_partial (fuel : Nat) (p : Platform) (manual : α → α) (tt : α) (tty : Bool) (l : Local.St Plugins.St Storage.Volatile α) (s : Program.St Plugins.St Storage.Volatile α) (es : List (Program.Ev α)) (ks rest : List Key)
    (h : Rehearsal pf f fuel (Sheet.start tty) ks) (h0 : Local.create (Plugins.app pf f) manual tt 200 (Plugins.boot ⟨false, false, false⟩) ⟨⟨false, tty, false⟩, []⟩ = .ok (l, none)) (hc : ∀ e ∈ es, Props.Calm e)
    (ht : (decode p .first (Props.Program.typed es)).2 <+: ks ++ rest) (hr : Program.run (Plugins.app pf f) (·.stopped) (fuel + 2) p manual es ⟨l, .run⟩ = .ok (some (s, none)))
    (hq : ∀ e, Moves e → Program.step (Plugins.app pf f) (·.stopped) (fuel + 2) p manual s e = .ok none) :
    ∃ a o, Take f (Sheet.start tty) a o ∧ (∀ base R, (scr base R 0 [] 0).run s.loc.proc.w.io.out = (scr base R 0 [] 0).run ((Desk.start tty).prompt ++ o)) ∧
      ((s.phase = .run ∧ a = (decode p .first (Props.Program.typed es)).2 ∧ a <+: ks ∧ a ≠ ks) ∨
       (s.phase = .over ∧ a = ks ∧ ks <+: (decode p .first (Props.Program.typed es)).2) ∨
       (s.phase = .joining ∧ a = ks ∧ ks <+: (decode p .first (Props.Program.typed es)).2 ∧ (decode p .first (Props.Program.typed es)).1 ≠ .first)) := by
  have g := inTurn_run es (inTurn_create (stopped := (·.stopped)) (fuel := fuel + 2) (p := p) h0) hc hr
  rw [List.nil_append] at g
  obtain ⟨k1, k2, k3, k4⟩ := keys_handled ht (rehearsal_goes pf f h h0) g
  obtain ⟨q, o, g1, g2, g3, g4, _⟩ := rehearsal_at pf f h h0 _ (List.take_prefix s.loc.handled _)
  rw [k3] at g1
  cases g1
  have hty : ks.take s.loc.handled <+: (decode p .first (Props.Program.typed es)).2 := by
    obtain ⟨r, f1, f2⟩ := g.typing.read
    rw [← k2, f1]
    exact (List.take_prefix _ _).trans (Props.decoded_prefix f2)
  refine ⟨_, o, g2, g3, ?_⟩
  rcases program_rest _ _ _ p manual _ _ s g hq with h1 | ⟨h1, h2, h3, h4⟩ | ⟨h1, h2⟩
  · have e := g4.1 (g.after (by rw [h1]; simp)).1
    rw [e] at hty
    exact .inr (.inl ⟨h1, e, hty⟩)
  · have hlt : s.loc.handled < ks.length := by
      rcases Nat.lt_or_ge s.loc.handled ks.length with hlt | hge
      · exact hlt
      · have := k4.2 (by omega)
        rw [h2] at this; cases this
    refine .inl ⟨h1, ?_, List.take_prefix _ _, ?_⟩
    · rw [← k2, h3, List.take_length, h4]
    · intro hx
      have := congrArg List.length hx
      rw [List.length_take] at this
      omega
  · have e := g4.1 (g.after (by rw [h1]; simp)).1
    rw [e] at hty
    exact .inr (.inr ⟨h1, e, hty, h2⟩)

end

/-! ### Examples -/

theorem fit_nil {pf : Platform} {f : Bool} {fuel : Nat} {d : Sheet} : Fit pf f fuel d [] :=
  ⟨fun _ h => (by cases h), fun a _ _ _ h => (by cases a <;> cases h), fun a _ _ _ h => (by cases a <;> cases h), fun a _ h => (by cases a <;> cases h), fun a _ _ _ h => (by cases a <;> cases h)⟩

/-- A key, and those after it. -/
theorem fit_cons {pf : Platform} {f : Bool} {fuel : Nat} {d d' : Sheet} {k : Key} {ks : List Key} {o : Str} (hk : Usual k) (hs : ∀ a d'' o', Drafting f d' a d'' o' → Drafting f d (k :: a) d'' (o ++ o'))
    (h1 : k = .ret → (Within pf (fuel + 1) d.desk d.text ∧ ¬ Fails f d.desk d.text) ∧ ¬ Quits d.desk d.text) (h2 : k ≠ .eof) (h3 : k = .ascii 9 → 2 * d.text.length ≤ fuel) (hf : Fit pf f fuel d' ks) :
    Fit pf f fuel d (k :: ks) := by
  have inv : ∀ {a d2 o2}, Drafting f d (k :: a) d2 o2 → ∃ o', Drafting f d' a d2 o' := by
    intro a d2 o2 h
    obtain ⟨d1, o1, o3, g1, g2, _⟩ := drafting_split (a := [k]) h
    obtain ⟨rfl, _⟩ := drafting_same g1 (hs [] _ _ .nil)
    exact ⟨_, g2⟩
  have at0 : ∀ {d2 o2}, Drafting f d [] d2 o2 → d2 = d := by intro d2 o2 h; cases h; rfl
  refine ⟨?_, ?_, ?_, ?_, ?_⟩
  · intro x hx
    rcases List.mem_cons.1 hx with rfl | hx
    · exact hk
    · exact hf.keys x hx
  · intro a b d2 o2 e h
    cases a with
    | nil => cases e; cases at0 h; exact (h1 rfl).1
    | cons c a => cases e; obtain ⟨o', h⟩ := inv h; exact hf.defined a b d2 o' rfl h
  · intro a b d2 o2 e h hq
    cases a with
    | nil => cases e; cases at0 h; exact absurd hq (h1 rfl).2
    | cons c a => cases e; obtain ⟨o', h⟩ := inv h; exact hf.quits a b d2 o' rfl h hq
  · intro a b e
    cases a with
    | nil => cases e; exact absurd rfl h2
    | cons c a => cases e; exact hf.eof a b rfl
  · intro a b d2 o2 e h
    cases a with
    | nil => cases e; cases at0 h; exact h3 rfl
    | cons c a => cases e; obtain ⟨o', h⟩ := inv h; exact hf.tabs a b d2 o' rfl h

theorem fit_edit {pf : Platform} {f : Bool} {fuel : Nat} {d : Sheet} {k : Key} {ks : List Key} (hk : Edits k) (hf : Fit pf f fuel { d with line := d.line.key k } ks) : Fit pf f fuel d (k :: ks) :=
  fit_cons (o := []) (.edits hk) (fun _ _ _ h => .edit hk h) (by rintro rfl; cases hk) (by rintro rfl; cases hk) (by rintro rfl; exact absurd hk not_edits_tab) hf

theorem fit_eof {pf : Platform} {f : Bool} {fuel : Nat} {d : Sheet} : Fit pf f fuel d [.eof] := by
  refine ⟨?_, ?_, ?_, ?_, ?_⟩
  · intro k hk; rw [List.mem_singleton] at hk; subst hk; exact .eof
  all_goals
    intro a b
    intros
    rename_i h
    cases a with
    | nil => first | rfl | simp_all
    | cons c a => simp_all

/-- **C136** At the root the name of a plugin is offered for its beginning if and only if the plugin is loaded. -/
theorem C136_offered {s : Desk} (hp : s.place = .root) (p : Plug) {r : Str} (h0 : r ≠ []) (h1 : r <+: called p) (h2 : r ≠ called p) : s.Completes r (called p) ↔ p ∈ s.loaded := by
  have hb : ∀ p : Plug, ∀ c ∈ called p, blank c = false := by intro p; cases p <;> decide
  have hg : Gap [] r := ⟨by simp, by
    cases r with
    | nil => simp
    | cons c r => intro c' e; cases e; exact hb p c (h1.subset (by simp))⟩
  constructor
  · rintro ⟨gap, typed, e, hg', h⟩
    obtain ⟨rfl, rfl⟩ := Completion.gap_unique hg' hg (by simpa using e.symm)
    rcases h with ⟨h3, _⟩ | ⟨ws, q, x, e, h3, h4, h5⟩
    · exact absurd h3 (by cases p <;> decide)
    · rw [hp] at h3
      generalize hr : Place.root = pl at h3
      cases h3 with
      | here =>
        subst hr
        have he : called p = e := h5
        subst he
        rcases h4 with ⟨h6, _⟩ | ⟨q, h6, h7, _⟩
        · have : ∀ x ∈ [bs!"list", bs!"loaded", bs!"load", bs!"unload", bs!"color", bs!"nocolor"], called p ≠ x := by cases p <;> decide
          refine absurd rfl (this (called p) ?_)
          simp only [Desk.names] at h6
          split at h6 <;> split at h6 <;> simp only [List.mem_append, List.mem_cons, List.not_mem_nil, or_false, List.append_nil] at h6 ⊢ <;> tauto
        · rcases h6 with ⟨_, x, h6, rfl⟩ | ⟨_, x, _, h6⟩
          · have : x = p := by cases x <;> cases p <;> first | rfl | exact absurd h7 (by decide)
            rw [← this]; exact h6
          · cases h6
      | down h _ _ =>
        obtain ⟨_, x, _, rfl⟩ := h
        rw [List.append_assoc] at h1 h2
        have h6 : (Place.plug x).name <+: called p := (List.prefix_append _ _).trans h1
        have : x = p := by cases x <;> cases p <;> first | rfl | exact absurd h6 (by decide)
        subst this
        have h7 := h1.length_le
        simp only [called, List.length_append] at h7
        exact absurd (h1.eq_of_length_le (by simp only [called, List.length_append]; omega)) h2
      | up h _ _ _ =>
        obtain ⟨_, x, _, h⟩ := h
        rw [← hr] at h
        cases h
  · intro h
    exact ⟨[], r, rfl, hg, .inr ⟨[], .root, r, called p, by rw [hp]; exact .here, .inr ⟨.plug p, .inl ⟨rfl, _, h, rfl⟩, rfl, h1, h2⟩, rfl⟩⟩

/-- What `st` can be completed to when the plugin `strings` is loaded, however often. -/
theorem offers_st {s : Desk} (hp : s.place = .root) (hl : .strings ∈ s.loaded) : s.Offers bs!"st" [bs!"strings"] := by
  refine ⟨by simp, fun c => ?_⟩
  rw [List.mem_singleton]
  constructor
  · rintro rfl
    exact ⟨[], bs!"st", rfl, ⟨by simp, by decide⟩, .inr ⟨[], .root, bs!"st", bs!"strings", by rw [hp]; exact .here, .inr ⟨.plug .strings, .inl ⟨rfl, _, hl, rfl⟩, rfl, by decide, by decide⟩, rfl⟩⟩
  · rintro ⟨gap, typed, e, hg, h⟩
    obtain ⟨rfl, rfl⟩ := Completion.gap_unique hg (show Gap [] bs!"st" from ⟨by simp, by decide⟩) (by simpa using e.symm)
    rcases h with ⟨h1, h2⟩ | ⟨ws, q, r, e, h1, h2, rfl⟩
    · simp only [List.mem_cons, List.not_mem_nil, or_false] at h1
      rcases h1 with rfl | rfl | rfl | rfl <;> exact absurd h2 (by decide)
    · rw [hp] at h1
      generalize hr : Place.root = p at h1
      generalize hx : bs!"st" = l at h1
      cases h1 with
      | here =>
        subst hr hx
        rcases h2 with ⟨h3, h4⟩ | ⟨q, h3, rfl, h4, _⟩
        · have : ∀ x ∈ [bs!"list", bs!"loaded", bs!"load", bs!"unload", bs!"color", bs!"nocolor"], ¬ bs!"st" <+: x := by decide
          refine absurd h4 (this e ?_)
          simp only [Desk.names] at h3
          split at h3 <;> split at h3 <;> simp only [List.mem_append, List.mem_cons, List.not_mem_nil, or_false, List.append_nil] at h3 ⊢ <;> tauto
        · rcases h3 with ⟨_, x, _, rfl⟩ | ⟨_, x, _, h3⟩
          · cases x
            · exact absurd h4 (by decide)
            · rfl
          · cases h3
      | down h _ _ =>
        obtain ⟨_, x, _, rfl⟩ := h
        have := congrArg List.length hx
        cases x <;> simp [Place.name] at this
      | up h _ _ _ =>
        obtain ⟨_, x, _, h⟩ := h
        rw [← hr] at h
        cases h

theorem load_strings (f : Bool) {s : Desk} (hs : s.place = .root) : Answer f s bs!"load strings" ((s.recorded bs!"load strings").apply (.loads .strings)) bs!"Plugin strings loaded\n" ∧ ¬ Fails f s bs!"load strings" ∧ ¬ Bang bs!"load strings" ∧
    ¬ Quits s bs!"load strings" ∧ ¬ Lex.Line bs!"load strings" [] := by
  have hl : Lex.Line bs!"load strings" [bs!"load", bs!"strings"] := (split_iff _ _).1 rfl
  have hn : ¬ Bang bs!"load strings" := not_bang hl (by decide)
  have hp : ¬ Pulls s (.loads .strings) := no_pull (by simp)
  have hd : Does f s s.place [bs!"load", bs!"strings"] (.loads .strings) := by
    rw [hs]
    exact .here (does := fun args x => ∃ a, args = [a] ∧ ((∃ p, a = called p ∧ x = .loads p) ∨ ((∀ p, a ≠ called p) ∧ x = .says []))) (.tail _ (.tail _ (.head _))) ⟨_, rfl, .inl ⟨.strings, rfl, rfl⟩⟩
  refine ⟨.does hl hd (by simp) hp, plain_fine hl hn fun r d => by cases C135_table hd d; exact ⟨by simp, hp⟩, hn, ?_, fun h => by cases line_same hl h⟩
  intro h
  cases h with
  | exit h => cases line_same hl h
  | again h _ _ => exact hn ⟨_, h⟩

theorem strings_upper (f : Bool) {s : Desk} (hs : s.place = .root) (hm : .strings ∈ s.loaded) : Answer f s bs!"strings upper abc" (s.recorded bs!"strings upper abc") bs!"ABC\n" ∧ ¬ Fails f s bs!"strings upper abc" ∧ ¬ Bang bs!"strings upper abc" ∧
    ¬ Quits s bs!"strings upper abc" ∧ ¬ Lex.Line bs!"strings upper abc" [] := by
  have hl : Lex.Line bs!"strings upper abc" [bs!"strings", bs!"upper", bs!"abc"] := (split_iff _ _).1 rfl
  have hn : ¬ Bang bs!"strings upper abc" := not_bang hl (by decide)
  have hp : ¬ Pulls s (.says bs!"ABC\n") := no_pull (by simp)
  have hd : Does f s s.place [bs!"strings", bs!"upper", bs!"abc"] (.says bs!"ABC\n") := by
    rw [hs]
    exact .inside (b := .plug .strings) ⟨rfl, _, hm, rfl⟩ (.here (does := fun args x => ∃ a, args = [a] ∧ x = .says (a.map capital ++ bs!"\n")) (.tail _ (.head _)) ⟨_, rfl, rfl⟩)
  refine ⟨.does hl hd (by simp) hp, plain_fine hl hn fun r d => by cases C135_table hd d; exact ⟨by simp, hp⟩, hn, ?_, fun h => by cases line_same hl h⟩
  intro h
  cases h with
  | exit h => cases line_same hl h
  | again h _ _ => exact hn ⟨_, h⟩

/-- Enter, after a line of which this is known. -/
theorem fit_enter {f : Bool} {fuel : Nat} {d : Sheet} {l : Str} {s' : Desk} {t : Str} {ks : List Key} (ht : d.text = l) (hr : Readable plat l)
    (h : Answer f d.desk l s' t ∧ ¬ Fails f d.desk l ∧ ¬ Bang l ∧ ¬ Quits d.desk l ∧ ¬ Lex.Line l []) (hf : Fit plat f fuel ⟨s'.prompted, ⟨[], []⟩, none⟩ ks) : Fit plat f fuel d (.ret :: ks) := by
  subst ht
  obtain ⟨h1, h2, h3, h4, h5⟩ := h
  exact fit_cons (o := d.desk.echoes d.text ++ bs!"\r\n" ++ t ++ s'.prompt) .ret (fun a d' o h => .enter h1 (.inr ⟨h5, rfl⟩) h) (fun _ => ⟨⟨.plain hr h3, h2⟩, h4⟩) (by simp) (by simp) hf

/-- A plugin is loaded, after a mistake; the name of its menu is completed; the line is shown again; and Ctrl-D. -/
def pressed : List Key := bs!"load stx".map .ascii ++ [.backspace] ++ bs!"rings".map .ascii ++ [.ret, .ascii b%'s', .ascii b%'t', .ascii 9] ++ bs!"upper abc".map .ascii ++ [.ret, .up, .eof]

theorem fit_chars {pf : Platform} {f : Bool} {fuel : Nat} {ks : List Key} : ∀ (t : Str) {d : Sheet}, (∀ c ∈ t, printable c = true) → Fit pf f fuel { d with line := (t.map Key.ascii).foldl Zip.key d.line } ks → Fit pf f fuel d (t.map .ascii ++ ks)
  | [], _, _, h => h
  | c :: t, d, hc, h => fit_edit (.ascii (hc c (by simp))) (fit_chars t (fun c hm => hc c (by simp [hm])) h)

/-- The hypothesis of the theorems is satisfiable. -/
theorem rehearsal_pressed (f : Bool) : Rehearsal plat f 20 (Sheet.start true) pressed := by
  refine ⟨?_, pressed.dropLast, .eof, rfl, fun _ _ _ => .inl rfl⟩
  have rd : Readable plat bs!"load strings" ∧ Readable plat bs!"strings upper abc" := by unfold Readable; decide
  simp only [pressed, List.append_assoc]
  refine fit_chars bs!"load stx" (by decide) (fit_edit .backspace (fit_chars bs!"rings" (by decide) (fit_enter (by decide) rd.1 (load_strings f rfl) ?_)))
  refine fit_edit (.ascii (by decide)) (fit_edit (.ascii (by decide)) (fit_cons (o := []) .tab (fun _ _ _ h => .tabOne (c := bs!"strings") (offers_st rfl (.head _)) h) (by simp) (by simp) (by intro _; decide) ?_))
  refine fit_chars bs!"upper abc" (by decide) (fit_enter (by decide) rd.2 (strings_upper f rfl (.head _)) ?_)
  exact fit_cons (o := []) .up (fun _ _ _ h => .up h) (by simp) (by simp) (by simp) fit_eof

/-- These are the keys for what is typed. -/
example : (decode plat .first bs!"load stx\x7frings\nst\tupper abc\n\x1b[A\x04").2 = pressed := by decide +kernel

/-- What the program then writes, on something that is not a terminal. -/
example : (match Local.create (α := Unit) (Plugins.app plat true) id () 200 (Plugins.boot ⟨false, false, false⟩) ⟨⟨false, false, false⟩, []⟩ with
      | .ok (l, none) => (match Processor.run (Plugins.app plat true) 22 pressed l.proc with | .ok (q, none) => some q.w.io.out | _ => none)
      | _ => none) =
    some bs!"cli> load stx\x08 \x08rings\r\nPlugin strings loaded\ncli> st\x08\x08strings upper abc\r\nABC\ncli> strings upper abcClosing App...\nGoodbye and thanks for all the fish.\n" := by decide +kernel

/-- The hypotheses of `C136_undefined` are satisfiable: `! 0`, after a mistake. -/
example (f : Bool) : ∃ d o, Fit plat f 20 (Sheet.start true) (bs!"! x".map .ascii ++ [.backspace, .ascii b%'0']) ∧ Drafting f (Sheet.start true) (bs!"! x".map .ascii ++ [.backspace, .ascii b%'0']) d o ∧
    Within plat 21 d.desk d.text ∧ Fails f d.desk d.text := by
  have hrec : Recalls bs!"! 0" 0 := Showcase.recalls_one
  refine ⟨⟨Desk.start true, ⟨bs!"0 !", []⟩, none⟩, [], fit_chars bs!"! x" (by decide) (fit_edit .backspace (fit_edit (.ascii (by decide)) fit_nil)),
    .edit (.ascii (by decide)) (.edit (.ascii (by decide)) (.edit (.ascii (by decide)) (.edit .backspace (.edit (.ascii (by decide)) .nil)))), ?_⟩
  refine ⟨.again (line := bs!"! 0") (by unfold Readable; decide) hrec fun c hc => ?_, .empty (line := bs!"! 0") ⟨0, hrec⟩ (.inr (by decide +kernel))⟩
  have : ((Desk.start true).skipped bs!"! 0").book.listing = [] := by decide +kernel
  rw [show ((⟨Desk.start true, ⟨bs!"0 !", []⟩, none⟩ : Sheet).desk.skipped bs!"! 0").book.listing = [] from this] at hc
  cases hc

/-- The program after these keys: what is being typed, and the screen. -/
def after (ks : List Key) : Option (Str × Screen) :=
  match Local.create (α := Unit) (Plugins.app plat true) id () 200 (Plugins.boot ⟨false, false, false⟩) ⟨⟨false, false, false⟩, []⟩ with
  | .ok (l, none) =>
    match Processor.run (Plugins.app plat true) 22 ks l.proc with
    | .ok (q, none) => some (q.term.line, (scr (fun _ _ => b%' ') 0 0 [] 0).run q.w.io.out)
    | _ => none
  | _ => none

/-- **C136**, the full statement is refuted: with a character in the history that cannot be printed (Ctrl-G), the arrows delete the prompt. -/
theorem C136_refuted : (decode plat .first bs!"x\x07\x07\n\x1b[A\x1b[B").2 = [.ascii b%'x', .ascii 7, .ascii 7, .ret, .up, .down] ∧
    (after [.ascii b%'x', .ascii 7, .ascii 7, .ret]).map (fun x => (x.1, x.2.cell 2 2, x.2.cell 2 3)) = some ([], b%'i', b%'>') ∧
    (after [.ascii b%'x', .ascii 7, .ascii 7, .ret, .up, .down]).map (fun x => (x.1, x.2.cell 2 2, x.2.cell 2 3)) = some ([], b%'i', b%' ') := by
  decide +kernel

end Verif.Workbench
