import Verif.Proofs.Slips

set_option linter.unusedSimpArgs false

/-!
# C137: editing lines in the examples with their own `io_context`, from the keyboard to the stream
-/

namespace Verif.Hosted
open Spec
open Terminal (Key)
open Keyboard (decode)
open Props (Moves InTurn inTurn_run inTurn_create program_rest plat)
open Showcase (Book Bang Readable Edits Common leftwards wipe settled sorted_same common_same not_edits_tab Usual GoesKeys keys_handled keys_run)
open Script (line_same)

variable {α : Type}

/-! ### The specification is unambiguous -/

theorem offers_same {s : Stand} {l : Str} {a b : List Str} (ha : s.Offers l a) (hb : s.Offers l b) : a = b := sorted_same ha.1 hb.1 fun c => by rw [ha.2, hb.2]

/-- Where the keys lead to, and what they show, is determined. -/
theorem drafting_same {d a b : Slip} {ks : List Key} {o o' : Str} (h1 : Drafting d ks a o) (h2 : Drafting d ks b o') : a = b ∧ o = o' := by
  induction h1 generalizing b o' with
  | nil => cases h2; exact ⟨rfl, rfl⟩
  | edit hk _ ih =>
    cases h2 with
    | edit _ h => exact ih h
    | up h | down h | clear h => cases hk
    | tabNone _ _ | tabOne _ _ | tabMore _ _ _ _ | tabList _ _ _ _ => exact absurd hk not_edits_tab
    | enter _ _ _ => cases hk
  | up _ ih =>
    cases h2 with
    | edit hk _ => cases hk
    | up h => exact ih h
  | down _ ih =>
    cases h2 with
    | edit hk _ => cases hk
    | down h => exact ih h
  | clear _ ih =>
    cases h2 with
    | edit hk _ => cases hk
    | clear h => obtain ⟨e1, e2⟩ := ih h; exact ⟨e1, by rw [e2]⟩
  | tabNone c1 _ ih =>
    cases h2 with
    | edit hk _ => exact absurd hk not_edits_tab
    | tabNone _ h => exact ih h
    | tabOne c2 _ | tabMore c2 _ _ _ | tabList c2 _ _ _ => cases offers_same c1 c2
  | tabOne c1 _ ih =>
    cases h2 with
    | edit hk _ => exact absurd hk not_edits_tab
    | tabOne c2 h => cases offers_same c1 c2; exact ih h
    | tabNone c2 _ | tabMore c2 _ _ _ | tabList c2 _ _ _ => cases offers_same c1 c2
  | tabMore c1 p1 l1 _ ih =>
    cases h2 with
    | edit hk _ => exact absurd hk not_edits_tab
    | tabMore c2 p2 _ h => cases offers_same c1 c2; cases common_same p1 p2; exact ih h
    | tabList c2 p2 l2 _ => cases offers_same c1 c2; cases common_same p1 p2; omega
    | tabNone c2 _ | tabOne c2 _ => cases offers_same c1 c2
  | tabList c1 p1 l1 _ ih =>
    cases h2 with
    | edit hk _ => exact absurd hk not_edits_tab
    | tabList c2 p2 _ h => cases offers_same c1 c2; obtain ⟨e1, e2⟩ := ih h; exact ⟨e1, by rw [e2]⟩
    | tabMore c2 p2 l2 _ => cases offers_same c1 c2; cases common_same p1 p2; omega
    | tabNone c2 _ | tabOne c2 _ => cases offers_same c1 c2
  | enter a1 b1 _ ih =>
    cases h2 with
    | edit hk _ => cases hk
    | enter a2 b2 h =>
      obtain ⟨rfl, rfl⟩ := stand_unique a1 a2
      have : ∀ {x y : Option (Str × Nat)} {d : Slip}, (Lex.Line d.text [] ∧ x = d.back) ∨ (¬ Lex.Line d.text [] ∧ x = none) → (Lex.Line d.text [] ∧ y = d.back) ∨ (¬ Lex.Line d.text [] ∧ y = none) → x = y := by
        rintro x y d (⟨u, rfl⟩ | ⟨u, rfl⟩) (⟨v, rfl⟩ | ⟨v, rfl⟩)
        · rfl
        · exact absurd u v
        · exact absurd v u
        · rfl
      cases this b1 b2
      obtain ⟨e1, e2⟩ := ih h
      exact ⟨e1, by rw [e2]⟩

theorem drafting_split : ∀ {a : List Key} {d d2 : Slip} {b : List Key} {o : Str}, Drafting d (a ++ b) d2 o → ∃ d1 o1 o2, Drafting d a d1 o1 ∧ Drafting d1 b d2 o2 ∧ o = o1 ++ o2 := by
  intro a
  induction a with
  | nil => intro d d2 b o h; exact ⟨d, [], o, .nil, h, rfl⟩
  | cons k a ih =>
    intro d d2 b o h
    rw [List.cons_append] at h
    cases h with
    | edit hk h => obtain ⟨d1, o1, o2, h1, h2, rfl⟩ := ih h; exact ⟨d1, o1, o2, .edit hk h1, h2, rfl⟩
    | up h => obtain ⟨d1, o1, o2, h1, h2, rfl⟩ := ih h; exact ⟨d1, o1, o2, .up h1, h2, rfl⟩
    | down h => obtain ⟨d1, o1, o2, h1, h2, rfl⟩ := ih h; exact ⟨d1, o1, o2, .down h1, h2, rfl⟩
    | clear h => obtain ⟨d1, o1, o2, h1, h2, rfl⟩ := ih h; exact ⟨d1, _, o2, .clear h1, h2, by simp⟩
    | tabNone c h => obtain ⟨d1, o1, o2, h1, h2, rfl⟩ := ih h; exact ⟨d1, o1, o2, .tabNone c h1, h2, rfl⟩
    | tabOne c h => obtain ⟨d1, o1, o2, h1, h2, rfl⟩ := ih h; exact ⟨d1, o1, o2, .tabOne c h1, h2, rfl⟩
    | tabMore c p l h => obtain ⟨d1, o1, o2, h1, h2, rfl⟩ := ih h; exact ⟨d1, o1, o2, .tabMore c p l h1, h2, rfl⟩
    | tabList c p l h => obtain ⟨d1, o1, o2, h1, h2, rfl⟩ := ih h; exact ⟨d1, _, o2, .tabList c p l h1, h2, by simp⟩
    | enter c p h => obtain ⟨d1, o1, o2, h1, h2, rfl⟩ := ih h; exact ⟨d1, _, o2, .enter c p h1, h2, by simp⟩

/-- A session that is over does not go on. -/
theorem over_not_on {d d' : Slip} {ks : List Key} {o o' : Str} (h1 : Over d ks o) (h2 : Drafting d ks d' o') : False := by
  cases h1 with
  | exit h q =>
    obtain ⟨d1, _, _, g1, g2, _⟩ := drafting_split h2
    obtain ⟨rfl, _⟩ := drafting_same h g1
    cases g2 with
    | edit hk _ => cases hk
    | enter a _ _ => exact stand_no_quit q rfl a
  | eof h =>
    obtain ⟨d1, _, _, _, g2, _⟩ := drafting_split h2
    cases g2 with
    | edit hk _ => cases hk

/-- **C137** What should be shown is determined by the keys. -/
theorem C137_spec {d : Slip} {ks : List Key} {o o' : Str} (h1 : Take d ks o) (h2 : Take d ks o') : o = o' := by
  cases h1 with
  | typing h1 =>
    cases h2 with
    | typing h2 => obtain ⟨rfl, rfl⟩ := drafting_same h1 h2; rfl
    | over h2 => exact (over_not_on h2 h1).elim
  | over h1 =>
    cases h2 with
    | typing h2 => exact (over_not_on h1 h2).elim
    | over h2 =>
      generalize hk : ks = ks' at h2
      cases h1 with
      | exit h1 q1 =>
        cases h2 with
        | exit h2 q2 =>
          obtain ⟨rfl, _⟩ := List.append_inj' hk rfl
          obtain ⟨rfl, rfl⟩ := drafting_same h1 h2; rfl
        | eof h2 => obtain ⟨_, e⟩ := List.append_inj' hk rfl; cases e
      | eof h1 =>
        cases h2 with
        | exit h2 _ => obtain ⟨_, e⟩ := List.append_inj' hk rfl; cases e
        | eof h2 =>
          obtain ⟨rfl, _⟩ := List.append_inj' hk rfl
          obtain ⟨rfl, rfl⟩ := drafting_same h1 h2; rfl

/-! ### The session -/

/-- Keys for which the behaviour is defined, as for C113; the last one may end the session, and no other does. -/
structure Fit (pf : Platform) (fuel : Nat) (d : Slip) (ks : List Key) : Prop where
  keys : ∀ k ∈ ks, Usual k
  defined : ∀ a b d' o, ks = a ++ .ret :: b → Drafting d a d' o → Within pf (fuel + 1) d'.stand.book d'.text ∧ ¬ Fails d'.stand.book d'.text
  quits : ∀ a b d' o, ks = a ++ .ret :: b → Drafting d a d' o → Quits d'.stand.book d'.text → b = []
  eof : ∀ a b, ks = a ++ .eof :: b → b = []
  /-- the stack suffices -/
  tabs : ∀ a b d' o, ks = a ++ .ascii 9 :: b → Drafting d a d' o → 2 * d'.text.length ≤ fuel

theorem fit_step {pf : Platform} {fuel : Nat} {d d' : Slip} {k : Key} {ks : List Key} {o : Str} (h : Fit pf fuel d (k :: ks)) (hs : ∀ ks d'' o', Drafting d' ks d'' o' → Drafting d (k :: ks) d'' (o ++ o')) : Fit pf fuel d' ks := by
  refine ⟨fun x hx => h.keys x (by simp [hx]), ?_, ?_, ?_, ?_⟩
  · rintro a b d2 o2 rfl hd; exact h.defined (k :: a) b d2 _ rfl (hs _ _ _ hd)
  · rintro a b d2 o2 rfl hd; exact h.quits (k :: a) b d2 _ rfl (hs _ _ _ hd)
  · rintro a b rfl; exact h.eof (k :: a) b rfl
  · rintro a b d2 o2 rfl hd; exact h.tabs (k :: a) b d2 _ rfl (hs _ _ _ hd)

theorem fit_prefix {pf : Platform} {fuel : Nat} {d : Slip} {a b : List Key} (h : Fit pf fuel d (a ++ b)) : Fit pf fuel d a := by
  refine ⟨fun x hx => h.keys x (by simp [hx]), ?_, ?_, ?_, ?_⟩
  · rintro x y d' o rfl hd; exact h.defined x (y ++ b) d' o (by simp) hd
  · rintro x y d' o rfl hd hq; exact (List.append_eq_nil_iff.1 (h.quits x (y ++ b) d' o (by simp) hd hq)).1
  · rintro x y rfl; exact (List.append_eq_nil_iff.1 (h.eof x (y ++ b) (by simp))).1
  · rintro x y d' o rfl hd; exact h.tabs x (y ++ b) d' o (by simp) hd

/-- The state after some keys. -/
def Got (s0 : Screen) (base : Nat → Nat → Byte) (R c : Nat) (d : Slip) (ks : List Key) (q : HProc) : Prop :=
  (∃ d' o base' R' c', Drafting d ks d' o ∧ On d' q ∧ Tidy d' ∧ (scr base R c [] 0).run o = scr base' R' c' [] 0 ∧ Sees s0 base' R' c' d' q.w.io) ∨
  (∃ o, Over d ks o ∧ q.w.exit = true ∧ q.w.app.stopped = true ∧ s0.run q.w.io.out = (scr base R c [] 0).run o)

theorem over_step {d d' : Slip} {k : Key} {ks : List Key} {o o' : Str} (hs : ∀ ks d'' o', Drafting d' ks d'' o' → Drafting d (k :: ks) d'' (o ++ o')) (h : Over d' ks o') : Over d (k :: ks) (o ++ o') := by
  cases h with
  | exit h q =>
    have := Over.exit (hs _ _ _ h) q
    simpa using this
  | eof h =>
    have := Over.eof (hs _ _ _ h)
    simpa using this

theorem drafts (pf : Platform) (fuel : Nat) (s0 : Screen) : ∀ (ks : List Key) (base : Nat → Nat → Byte) (R c : Nat) (d : Slip) (p : HProc),
    Fit pf fuel d ks → On d p → Tidy d → Sees s0 base R c d p.w.io → ∃ q, Processor.run (app pf) (fuel + 2) ks p = .ok (q, none) ∧ Got s0 base R c d ks q
  | [], base, R, c, d, p, _, ho, ht, hs => ⟨p, rfl, .inl ⟨d, [], base, R, c, .nil, ho, ht, rfl, hs⟩⟩
  | k :: ks, base, R, c, d, p, hf, ho, ht, hs => by
    have go : Steps (app pf) (fuel + 2) s0 base R c d p k → ∃ q, Processor.run (app pf) (fuel + 2) (k :: ks) p = .ok (q, none) ∧ Got s0 base R c d (k :: ks) q := by
      rintro ⟨q, d', o, h1, h2, h3, h4, base', R', c', h5, h6⟩
      obtain ⟨q', g1, g2⟩ := drafts pf fuel s0 ks base' R' c' d' q (fit_step hf h4) h2 h3 h6
      refine ⟨q', by simp only [Processor.run, h1, bind, Except.bind]; exact g1, ?_⟩
      rcases g2 with ⟨d2, o2, b2, R2, c2, e1, e2, e3, e4, e5⟩ | ⟨o2, e1, e2, e3, e4⟩
      · exact .inl ⟨d2, o ++ o2, b2, R2, c2, h4 _ _ _ e1, e2, e3, by rw [run_append, h5, e4], e5⟩
      · exact .inr ⟨o ++ o2, over_step h4 e1, e2, e3, by rw [run_append, h5, e4]⟩
    have fin : ∀ {o : Str}, ks = [] → Over d [k] o → Ends (app pf) (fuel + 2) s0 base R c p k o → ∃ q, Processor.run (app pf) (fuel + 2) (k :: ks) p = .ok (q, none) ∧ Got s0 base R c d (k :: ks) q := by
      rintro o rfl h1 ⟨q, h2, h3, h4, h5⟩
      exact ⟨q, by simp only [Processor.run, h2, bind, Except.bind], .inr ⟨o, h1, h3, h4, h5⟩⟩
    cases hf.keys k (by simp) with
    | edits hk =>
      obtain ⟨q, h1, h2, h3, h4⟩ := edit_step (app pf) (fuel + 2) hk ho ht hs
      exact go ⟨q, _, [], h1, h2, h3, fun _ _ _ h => .edit hk h, base, R, c, rfl, h4⟩
    | up =>
      obtain ⟨q, h1, h2, h3, h4⟩ := arrow_up (app pf) (fuel + 2) ho ht hs
      exact go ⟨q, _, [], h1, h2, h3, fun _ _ _ h => .up h, base, R, c, rfl, h4⟩
    | down =>
      obtain ⟨q, h1, h2, h3, h4⟩ := arrow_down (app pf) (fuel + 2) ho ht hs
      exact go ⟨q, _, [], h1, h2, h3, fun _ _ _ h => .down h, base, R, c, rfl, h4⟩
    | clear =>
      obtain ⟨q, h1, h2, h3, b, R', c', h4, h5⟩ := clear_step (app pf) (fuel + 2) ho ht hs
      exact go ⟨q, _, _, h1, h2, h3, fun _ _ _ h => .clear h, b, R', c', h4, h5⟩
    | tab => exact go (tab_step (app pf) (fuel + 2) (by have := hf.tabs [] ks d [] rfl .nil; omega) ho ht hs)
    | ret =>
      obtain ⟨h1, h3⟩ := hf.defined [] ks d [] rfl .nil
      rcases enter_step pf fuel h1 h3 ho ht hs with ⟨_, h⟩ | ⟨h4, h⟩
      · exact go h
      · exact fin (hf.quits [] ks d [] rfl .nil h4) (by simpa using Over.exit (.nil (d := d)) h4) h
    | eof => exact fin (hf.eof [] ks rfl) (by simpa using Over.eof (.nil (d := d))) (eof_step pf (fuel + 2) ho ht hs)

/-- What is shown is what should be. -/
theorem got_take {s0 : Screen} {base : Nat → Nat → Byte} {R c : Nat} {d : Slip} {ks : List Key} {q : HProc} (h : Got s0 base R c d ks q) :
    ∃ o, Take d ks o ∧ s0.run q.w.io.out = (scr base R c [] 0).run o ∧ (q.w.exit = true ↔ ∃ o', Over d ks o') ∧ (q.w.app.stopped = true ↔ ∃ o', Over d ks o') := by
  rcases h with ⟨d', o, b, R', c', h1, h2, h3, h4, h5⟩ | ⟨o, h1, h2, h3, h4⟩
  · have e : (scr b R' c' [] 0).run (d'.stand.echoes d'.text ++ leftwards d'.line.after.length) = scr b R' c' d'.text d'.line.before.length := line_run _ _ _ _ _ h3.line
    have hx : q.w.exit = false := h2.place.at_.left.trans h2.place.stays
    have ha : q.w.app.stopped = false := h2.place.at_.stopped.trans h2.place.stays
    refine ⟨_, .typing h1, ?_, ?_, ?_⟩
    · rw [List.append_assoc, run_append, h4, e]; exact h5
    · rw [hx]; exact ⟨fun h => (by cases h), fun ⟨_, h⟩ => (over_not_on h h1).elim⟩
    · rw [ha]; exact ⟨fun h => (by cases h), fun ⟨_, h⟩ => (over_not_on h h1).elim⟩
  · exact ⟨o, .over h1, h4, by rw [h2]; exact ⟨fun _ => ⟨o, h1⟩, fun _ => rfl⟩, by rw [h3]; exact ⟨fun _ => ⟨o, h1⟩, fun _ => rfl⟩⟩

/-! ### The program -/

/-- Before anything is typed. -/
def Slip.start (tty : Bool) : Slip := ⟨Stand.start tty, ⟨[], []⟩, none⟩

/-- Keys of which the last one ends the session and no other does, for which the behaviour is defined. -/
structure Rehearsal (pf : Platform) (fuel : Nat) (d : Slip) (ks : List Key) : Prop where
  fit : Fit pf fuel d ks
  last : ∃ a k, ks = a ++ [k] ∧ ∀ d' o, Drafting d a d' o → k = .eof ∨ (k = .ret ∧ Quits d'.stand.book d'.text)

theorem over_whole {pf : Platform} {fuel : Nat} {d : Slip} {a ks : List Key} {o : Str} (hf : Fit pf fuel d ks) (ha : a <+: ks) (ho : Over d a o) : a = ks := by
  obtain ⟨t, rfl⟩ := ha
  cases ho with
  | exit h q =>
    have := hf.quits _ t _ _ (by simp) h q
    rw [this]; simp
  | eof h =>
    have := hf.eof _ t (List.append_assoc _ _ _)
    rw [this]; simp

theorem start_tidy (tty : Bool) : Tidy (Slip.start tty) := ⟨(by intro c hc; cases hc), (by intro c hc; cases hc), (by intro x k h; cases h), (by show 1 ≤ 200; decide)⟩

theorem rehearsed {pf : Platform} {tty : Bool} {fuel : Nat} {ks : List Key} (h : Rehearsal pf fuel (Slip.start tty) ks) {w : W} (h2 : Here (Stand.start tty) w) (h3 : w.io.out = (Stand.start tty).prompt) (a : List Key) (ha : a <+: ks) :
    ∃ q o, Processor.run (app pf) (fuel + 2) a ⟨w, ⟨[], 0⟩, true⟩ = .ok (q, none) ∧ Take (Slip.start tty) a o ∧
      (∀ base R, (scr base R 0 [] 0).run q.w.io.out = (scr base R 0 [] 0).run ((Stand.start tty).prompt ++ o)) ∧
      (q.w.app.stopped = true ↔ a = ks) ∧ (q.w.exit = true ↔ a = ks) := by
  have hm : w.hist.mode = .inserting := h2.kept.mode
  have hset : settled w.hist = w.hist := by simp only [settled, hm]
  have hon : On (Slip.start tty) (⟨w, ⟨[], 0⟩, true⟩ : HProc) :=
    ⟨by simp only [hset]; exact h2, h2.at_.hist, hm, rfl, rfl, by cases tty <;> rfl⟩
  have go : ∀ base R a, a <+: ks → ∃ q base' c, Processor.run (app pf) (fuel + 2) a ⟨w, ⟨[], 0⟩, true⟩ = .ok (q, none) ∧ (scr base R 0 [] 0).run (Stand.start tty).prompt = scr base' R c [] 0 ∧
      Got (scr base R 0 [] 0) base' R c (Slip.start tty) a q := by
    intro base R a ha
    obtain ⟨base', c, hp⟩ := prompt_run (Stand.start tty) base R
    obtain ⟨t, rfl⟩ := ha
    obtain ⟨q, g1, g2⟩ := drafts pf fuel (scr base R 0 [] 0) a base' R c _ ⟨w, ⟨[], 0⟩, true⟩ (fit_prefix h.fit) hon (start_tidy tty) (by
      simp only [Sees, h3, hp, Slip.start, Slip.text, Zip.text, List.reverse_nil, List.append_nil, List.length_nil])
    exact ⟨q, base', c, g1, hp, g2⟩
  have hover : (∃ o, Over (Slip.start tty) a o) ↔ a = ks := by
    constructor
    · rintro ⟨o, ho⟩; exact over_whole h.fit ha ho
    · rintro rfl
      obtain ⟨b, k, rfl, hl⟩ := h.last
      obtain ⟨q, base', c, _, _, g⟩ := go (fun _ _ => 0) 0 b (List.prefix_append _ _)
      rcases g with ⟨d', o, _, _, _, hd, _⟩ | ⟨o, ho, _⟩
      · rcases hl d' o hd with rfl | ⟨rfl, hq⟩
        · exact ⟨_, .eof hd⟩
        · exact ⟨_, .exit hd hq⟩
      · have := congrArg List.length (over_whole h.fit (List.prefix_append _ _) ho)
        simp at this
  obtain ⟨q, base', c, g1, g2, g3⟩ := go (fun _ _ => 0) 0 a ha
  obtain ⟨o, e1, _, e4, e5⟩ := got_take g3
  refine ⟨q, o, g1, e1, ?_, by rw [← hover]; exact e5, by rw [← hover]; exact e4⟩
  intro base R
  obtain ⟨q', b2, c2, k1, k2, k3⟩ := go base R a ha
  rw [g1] at k1
  cases k1
  obtain ⟨o2, f1, f2, _⟩ := got_take k3
  rw [C137_spec e1 f1, run_append, k2]
  exact f2

/-- **C137** A line whose behaviour should be undefined leads to undefined behaviour in the model when Enter is pressed, however it has been typed, edited, recalled or completed: such lines are not excluded for nothing. -/
theorem C137_undefined (p : Platform) (fuel : Nat) (manual : α → α) (tt : α) (tty : Bool) (l : Local.St Iface Storage.Volatile α) (h0 : interface p manual tt tty = .ok (l, none)) (ks : List Key) (d : Slip) (o : Str)
    (hk : Fit p fuel (Slip.start tty) ks) (hd : Drafting (Slip.start tty) ks d o) (hw : Within p (fuel + 1) d.stand.book d.text) (hf : Fails d.stand.book d.text) :
    ∃ u, Processor.run (app p) (fuel + 2) (ks ++ [.ret]) l.proc = .error (.ub u) := by
  obtain ⟨w, h1, h2, h3⟩ := here_created h0
  have hm : w.hist.mode = .inserting := h2.kept.mode
  have hset : settled w.hist = w.hist := by simp only [settled, hm]
  have hon : On (Slip.start tty) (⟨w, ⟨[], 0⟩, true⟩ : HProc) :=
    ⟨by simp only [hset]; exact h2, h2.at_.hist, hm, rfl, rfl, by cases tty <;> rfl⟩
  obtain ⟨base', c, hp⟩ := prompt_run (Stand.start tty) (fun _ _ => 0) 0
  obtain ⟨q, g1, g2⟩ := drafts p fuel (scr (fun _ _ => 0) 0 0 [] 0) ks base' 0 c _ ⟨w, ⟨[], 0⟩, true⟩ hk hon (start_tidy tty) (by
    simp only [Sees, h3, hp, Slip.start, Slip.text, Zip.text, List.reverse_nil, List.append_nil, List.length_nil])
  rcases g2 with ⟨d', o', _, _, _, e1, e2, _⟩ | ⟨_, e1, _⟩
  · obtain ⟨rfl, _⟩ := drafting_same hd e1
    obtain ⟨u, e⟩ := fail_step p fuel hw hf e2
    refine ⟨u, ?_⟩
    rw [Props.proc_run_append, h1, g1]
    simp only [Processor.run, e, bind, Except.bind]
  · exact (over_not_on e1 hd).elim

section
variable {fuel : Nat} {p : Platform} {manual : α → α} {tt : α} {tty : Bool} {l : Local.St Iface Storage.Volatile α} {ks : List Key}

theorem slips_at (h : Rehearsal p fuel (Slip.start tty) ks) (h0 : interface p manual tt tty = .ok (l, none)) (a : List Key) (ha : a <+: ks) :
    ∃ q o, Processor.run (app p) (fuel + 2) a l.proc = .ok (q, none) ∧ Take (Slip.start tty) a o ∧
      (∀ base R, (scr base R 0 [] 0).run q.w.io.out = (scr base R 0 [] 0).run ((Stand.start tty).prompt ++ o)) ∧ (q.w.app.stopped = true ↔ a = ks) := by
  obtain ⟨w, h1, h2, h3⟩ := here_created h0
  obtain ⟨q, o, g1, g2, g3, g4, _⟩ := rehearsed h h2 h3 a ha
  exact ⟨q, o, by rw [h1]; exact g1, g2, g3, g4⟩

theorem slips_goes (h : Rehearsal p fuel (Slip.start tty) ks) (h0 : interface p manual tt tty = .ok (l, none)) : GoesKeys (app p) (·.stopped) (fuel + 2) l.proc ks := by
  intro a ha
  obtain ⟨q, o, g1, _, _, g4⟩ := slips_at h h0 a ha
  exact ⟨q, g1, g4⟩

/-- What is known of the program at any time. -/
theorem slips_run (h : Rehearsal p fuel (Slip.start tty) ks) (h0 : interface p manual tt tty = .ok (l, none)) {own : List Str} {es : List (Ev α)} {t : St Iface Storage.Volatile α} {rest : List Key} (hc : ∀ e ∈ others es, Props.Calm e)
    (ht : (decode p .first (Props.Program.typed (others es))).2 <+: ks ++ rest) (hr : run (app p) (·.stopped) (fuel + 2) p manual es ⟨⟨l, .run⟩, own⟩ = .ok (some (t, none))) :
    ∃ s texts o, Near texts s t.prog ∧ (texts ++ t.own).Perm own ∧ InTurn (app p) (·.stopped) (fuel + 2) p l.proc (Props.Program.typed (others es)) s ∧ s.loc.handled ≤ ks.length ∧
      (s.loc.proc.w.app.stopped = true ↔ s.loc.handled = ks.length) ∧ (s.loc.proc.w.app.stopped = true ↔ ks.take s.loc.handled = ks) ∧ s.loc.kb.posted.take s.loc.handled = ks.take s.loc.handled ∧
      ks.take s.loc.handled <+: (decode p .first (Props.Program.typed (others es))).2 ∧ Take (Slip.start tty) (ks.take s.loc.handled) o ∧
      ∀ base R, (scr base R 0 [] 0).run s.loc.proc.w.io.out = (scr base R 0 [] 0).run ((Stand.start tty).prompt ++ o) := by
  have k := shared_run (app p) (·.stopped) (fuel + 2) p manual es (near_refl (St.mk ⟨l, .run⟩ own).prog)
  rw [hr] at k
  obtain ⟨s, texts, k1, k2, k3⟩ := k
  have g := inTurn_run (others es) (inTurn_create (stopped := (·.stopped)) (fuel := fuel + 2) (p := p) h0) hc k1
  rw [List.nil_append] at g
  obtain ⟨j1, j2, j3, j4⟩ := keys_handled ht (slips_goes h h0) g
  obtain ⟨q, o, g1, g2, g3, g4⟩ := slips_at h h0 _ (List.take_prefix s.loc.handled _)
  rw [j3] at g1
  cases g1
  refine ⟨s, texts, o, by simpa using k2, k3, g, j1, j4, g4, j2, ?_, g2, g3⟩
  obtain ⟨r, f1, f2⟩ := g.typing.read
  rw [← j2, f1]
  exact (List.take_prefix _ _).trans (Props.decoded_prefix f2)

end

/-- **C137** (partial) At any time, whatever the order in which the threads take their steps, the keys are pressed and the application's own functions (the timer) are executed: the stream has got a text `c`, with the texts of the functions that have been
    executed between, each of them whole. On a screen, `c` looks as if the prompt, the lines as they have been entered, the answers, and the line as it is now had been written without a mistake, for some of the keys pressed, those that have been
    handled; and the cursor is where it should be. `run` is left when the last key, which ends the session, has been handled, and no key after it is. Missing: as for C113, lines for which the behaviour is undefined; characters that cannot
    be printed (`C137_refuted`). -/
theorem C137_screen_partial (fuel : Nat) (p : Platform) (manual : α → α) (tt : α) (tty : Bool) (l : Local.St Iface Storage.Volatile α) (own : List Str) (es : List (Ev α)) (t : St Iface Storage.Volatile α) (ks rest : List Key)
    (h : Rehearsal p fuel (Slip.start tty) ks) (h0 : interface p manual tt tty = .ok (l, none)) (hc : ∀ e ∈ others es, Props.Calm e) (ht : (decode p .first (Props.Program.typed (others es))).2 <+: ks ++ rest)
    (hr : run (app p) (·.stopped) (fuel + 2) p manual es ⟨⟨l, .run⟩, own⟩ = .ok (some (t, none))) :
    ∃ a o c texts, a <+: (decode p .first (Props.Program.typed (others es))).2 ∧ a <+: ks ∧ Take (Slip.start tty) a o ∧
      (∀ base R, (scr base R 0 [] 0).run c = (scr base R 0 [] 0).run ((Stand.start tty).prompt ++ o)) ∧ Between c texts t.prog.loc.proc.w.io.out ∧ (texts ++ t.own).Perm own ∧
      (t.prog.phase ≠ .run → a = ks) ∧ (t.prog.loc.proc.w.app.stopped = true ↔ a = ks) := by
  obtain ⟨s, texts, o, k1, k2, k3, _, _, k6, _, k8, k9, k10⟩ := slips_run h h0 hc ht hr
  refine ⟨_, o, _, texts, k8, List.take_prefix _ _, k9, k10, (near_same k1).out, k2, fun hp => ?_, by rw [k1.app]; exact k6⟩
  exact k6.1 (k3.after (by rw [← k1.phase]; exact hp)).1

/-- **C137** (partial) As long as none of the application's functions has been executed, the screen looks like this. -/
theorem C137_quiet_partial (fuel : Nat) (p : Platform) (manual : α → α) (tt : α) (tty : Bool) (l : Local.St Iface Storage.Volatile α) (own : List Str) (es : List (Ev α)) (t : St Iface Storage.Volatile α) (ks rest : List Key)
    (h : Rehearsal p fuel (Slip.start tty) ks) (h0 : interface p manual tt tty = .ok (l, none)) (hc : ∀ e ∈ others es, Props.Calm e) (ht : (decode p .first (Props.Program.typed (others es))).2 <+: ks ++ rest)
    (hr : run (app p) (·.stopped) (fuel + 2) p manual es ⟨⟨l, .run⟩, own⟩ = .ok (some (t, none))) (hq : t.own.length = own.length) :
    ∃ a o, a <+: (decode p .first (Props.Program.typed (others es))).2 ∧ a <+: ks ∧ Take (Slip.start tty) a o ∧
      ∀ base R, (scr base R 0 [] 0).run t.prog.loc.proc.w.io.out = (scr base R 0 [] 0).run ((Stand.start tty).prompt ++ o) := by
  obtain ⟨a, o, c, texts, h1, h2, h3, h4, h5, h6, _⟩ := C137_screen_partial fuel p manual tt tty l own es t ks rest h h0 hc ht hr
  have hn : texts = [] := by
    have := h6.length_eq
    rw [List.length_append] at this
    exact List.length_eq_zero_iff.1 (by omega)
  exact ⟨a, o, h1, h2, h3, by rw [between_none h5 hn]; exact h4⟩

/-- **C137** (partial) Nothing goes wrong: the behaviour is defined, and no exception leaves `run`. -/
theorem C137_defined_partial (fuel : Nat) (p : Platform) (manual : α → α) (tt : α) (tty : Bool) (l : Local.St Iface Storage.Volatile α) (own : List Str) (es : List (Ev α)) (ks rest : List Key)
    (h : Rehearsal p fuel (Slip.start tty) ks) (h0 : interface p manual tt tty = .ok (l, none)) (hc : ∀ e ∈ others es, Props.Calm e) (ht : (decode p .first (Props.Program.typed (others es))).2 <+: ks ++ rest) :
    run (app p) (·.stopped) (fuel + 2) p manual es ⟨⟨l, .run⟩, own⟩ = .ok none ∨ ∃ t, run (app p) (·.stopped) (fuel + 2) p manual es ⟨⟨l, .run⟩, own⟩ = .ok (some (t, none)) := by
  have hg := keys_run (manual := manual) (p := p) (rest := rest) (slips_goes h h0) (others es) (inTurn_create h0) hc (by rw [List.nil_append]; exact ht)
  have k := shared_run (app p) (·.stopped) (fuel + 2) p manual es (near_refl (St.mk ⟨l, .run⟩ own).prog)
  match hrun : run (app p) (·.stopped) (fuel + 2) p manual es ⟨⟨l, .run⟩, own⟩ with
  | .error f =>
    rw [hrun] at k
    rcases hg with hg | ⟨s, hg⟩ <;> cases hg.symm.trans k
  | .ok none => exact .inl rfl
  | .ok (some (t, none)) => exact .inr ⟨t, rfl⟩
  | .ok (some (t, some e)) =>
    rw [hrun] at k
    obtain ⟨s, texts, k1, _⟩ := k
    rcases hg with hg | ⟨s, hg⟩ <;> cases hg.symm.trans k1

/-- **C137** (partial) When neither thread can do anything more and no function of the application is left that could be executed: the program waits for input, all of these functions have been executed, and the stream has got what belongs to all the keys
    pressed and the texts of the functions between; or the program is over, and the stream has got what belongs to the keys up to the end of the session and some of those texts between; or this is so but for the end of the program, which waits
    for the rest of half an escape sequence that has been typed after the end of the session. -/
theorem C137_rest_partial (fuel : Nat) (p : Platform) (manual : α → α) (tt : α) (tty : Bool) (l : Local.St Iface Storage.Volatile α) (own : List Str) (es : List (Ev α)) (t : St Iface Storage.Volatile α) (ks rest : List Key)
    (h : Rehearsal p fuel (Slip.start tty) ks) (h0 : interface p manual tt tty = .ok (l, none)) (hc : ∀ e ∈ others es, Props.Calm e) (ht : (decode p .first (Props.Program.typed (others es))).2 <+: ks ++ rest)
    (hr : run (app p) (·.stopped) (fuel + 2) p manual es ⟨⟨l, .run⟩, own⟩ = .ok (some (t, none)))
    (hq : ∀ e, Moves e → step (app p) (·.stopped) (fuel + 2) p manual t (.prog e) = .ok none) (hq' : ∀ i, step (app p) (·.stopped) (fuel + 2) p manual t (.own i) = .ok none) :
    ∃ a o c texts, Take (Slip.start tty) a o ∧ (∀ base R, (scr base R 0 [] 0).run c = (scr base R 0 [] 0).run ((Stand.start tty).prompt ++ o)) ∧ Between c texts t.prog.loc.proc.w.io.out ∧ (texts ++ t.own).Perm own ∧
      ((t.prog.phase = .run ∧ t.own = [] ∧ a = (decode p .first (Props.Program.typed (others es))).2 ∧ a <+: ks ∧ a ≠ ks) ∨
       (t.prog.phase = .over ∧ a = ks ∧ ks <+: (decode p .first (Props.Program.typed (others es))).2) ∨
       (t.prog.phase = .joining ∧ a = ks ∧ ks <+: (decode p .first (Props.Program.typed (others es))).2 ∧ (decode p .first (Props.Program.typed (others es))).1 ≠ .first)) := by
  obtain ⟨s, texts, o, k1, k2, g, k4, k5, k6, k7, hty, g2, k8⟩ := slips_run h h0 hc ht hr
  have hqs : ∀ e, Moves e → Program.step (app p) (·.stopped) (fuel + 2) p manual s e = .ok none := by
    intro e he
    have h1 := hq e he
    have h2 := near_step (app p) (·.stopped) (fuel + 2) p manual k1 e
    simp only [step] at h1
    revert h1 h2
    generalize Program.step (app p) (·.stopped) (fuel + 2) p manual s e = a
    generalize Program.step (app p) (·.stopped) (fuel + 2) p manual t.prog e = b
    intro h1 h2
    cases h2 with
    | fault f => cases h1
    | none => rfl
    | some y k => cases h1
  refine ⟨_, o, _, texts, g2, k8, (near_same k1).out, k2, ?_⟩
  rw [k1.phase]
  rcases program_rest _ _ _ p manual _ _ s g hqs with h1 | ⟨h1, h2, h3, h4⟩ | ⟨h1, h2⟩
  · have e := k6.1 (g.after (by rw [h1]; simp)).1
    rw [e] at hty
    exact .inr (.inl ⟨h1, e, hty⟩)
  · have hlt : s.loc.handled < ks.length := by
      rcases Nat.lt_or_ge s.loc.handled ks.length with hlt | hge
      · exact hlt
      · have := k5.2 (by omega)
        rw [h2] at this; cases this
    have hbusy : s.loc.busy = false := by
      cases hbz : s.loc.busy with
      | false => rfl
      | true =>
        have := hqs .done trivial
        simp [Program.step, h1, Program.step.lift, Local.step, hbz, Keyboard.step] at this
    refine .inl ⟨h1, ?_, ?_, List.take_prefix _ _, fun hx => ?_⟩
    · have := hq' 0
      simp only [step] at this
      rw [if_pos ⟨by rw [k1.phase]; exact h1, by rw [k1.busy]; exact hbusy, by rw [k1.app]; exact h2⟩] at this
      cases ho : t.own with
      | nil => rfl
      | cons a b => rw [ho] at this; cases this
    · rw [← k7, h3, List.take_length, h4]
    · have := congrArg List.length hx
      rw [List.length_take] at this
      omega
  · have e := k6.1 (g.after (by rw [h1]; simp)).1
    rw [e] at hty
    exact .inr (.inr ⟨h1, e, hty, h2⟩)

/-- **C137** `color` is offered for its beginning if and only if it is enabled, and so is `nocolor`. -/
theorem C137_offered (s : Stand) : (∀ r, r ≠ [] → r <+: bs!"color" → (s.Completes r bs!"color" ↔ s.panel.color = true)) ∧ ∀ r, r ≠ [] → r <+: bs!"nocolor" → (s.Completes r bs!"nocolor" ↔ s.panel.nocolor = true) := by
  have key : ∀ (name r : Str), (∀ c ∈ name, Spec.blank c = false) → r ≠ [] → r <+: name → (s.Completes r name ↔ name ∈ s.names) := by
    intro name r hb h0 h1
    have hg : Gap [] r := ⟨by simp, by
      cases r with
      | nil => simp
      | cons c r => intro c' e; cases e; exact hb c (h1.subset (by simp))⟩
    constructor
    · rintro ⟨_, _, _, _, h, _⟩; exact h
    · intro h; exact ⟨[], r, rfl, hg, h, h1⟩
  refine ⟨fun r h0 h1 => (key _ r (by decide) h0 h1).trans ?_, fun r h0 h1 => (key _ r (by decide) h0 h1).trans ?_⟩ <;>
    cases hc : s.panel.color <;> cases hn : s.panel.nocolor <;> simp [Stand.names, hc, hn]

/-! ### Examples -/

theorem fit_nil {pf : Platform} {fuel : Nat} {d : Slip} : Fit pf fuel d [] :=
  ⟨fun _ h => (by cases h), fun a _ _ _ h => (by cases a <;> cases h), fun a _ _ _ h => (by cases a <;> cases h), fun a _ h => (by cases a <;> cases h), fun a _ _ _ h => (by cases a <;> cases h)⟩

/-- A key, and those after it. -/
theorem fit_cons {pf : Platform} {fuel : Nat} {d d' : Slip} {k : Key} {ks : List Key} {o : Str} (hk : Usual k) (hs : ∀ a d'' o', Drafting d' a d'' o' → Drafting d (k :: a) d'' (o ++ o'))
    (h1 : k = .ret → (Within pf (fuel + 1) d.stand.book d.text ∧ ¬ Fails d.stand.book d.text) ∧ ¬ Quits d.stand.book d.text) (h2 : k ≠ .eof) (h3 : k = .ascii 9 → 2 * d.text.length ≤ fuel) (hf : Fit pf fuel d' ks) :
    Fit pf fuel d (k :: ks) := by
  have inv : ∀ {a d2 o2}, Drafting d (k :: a) d2 o2 → ∃ o', Drafting d' a d2 o' := by
    intro a d2 o2 h
    obtain ⟨d1, o1, o3, g1, g2, _⟩ := drafting_split (a := [k]) h
    obtain ⟨rfl, _⟩ := drafting_same g1 (hs [] _ _ .nil)
    exact ⟨_, g2⟩
  have at0 : ∀ {d2 o2}, Drafting d [] d2 o2 → d2 = d := by intro d2 o2 h; cases h; rfl
  refine ⟨?_, ?_, ?_, ?_, ?_⟩
  · intro x hx
    rcases List.mem_cons.1 hx with rfl | hx
    · exact hk
    · exact hf.keys x hx
  · intro a b d2 o2 e h
    cases a with
    | nil => cases e; cases at0 h; exact (h1 rfl).1
    | cons c a => cases e; obtain ⟨o', h⟩ := inv h; exact hf.defined a b d2 o' rfl h
  · intro a b d2 o2 e h hq
    cases a with
    | nil => cases e; cases at0 h; exact absurd hq (h1 rfl).2
    | cons c a => cases e; obtain ⟨o', h⟩ := inv h; exact hf.quits a b d2 o' rfl h hq
  · intro a b e
    cases a with
    | nil => cases e; exact absurd rfl h2
    | cons c a => cases e; exact hf.eof a b rfl
  · intro a b d2 o2 e h
    cases a with
    | nil => cases e; cases at0 h; exact h3 rfl
    | cons c a => cases e; obtain ⟨o', h⟩ := inv h; exact hf.tabs a b d2 o' rfl h

theorem fit_edit {pf : Platform} {fuel : Nat} {d : Slip} {k : Key} {ks : List Key} (hk : Edits k) (hf : Fit pf fuel { d with line := d.line.key k } ks) : Fit pf fuel d (k :: ks) :=
  fit_cons (o := []) (.edits hk) (fun _ _ _ h => .edit hk h) (by rintro rfl; cases hk) (by rintro rfl; cases hk) (by rintro rfl; exact absurd hk not_edits_tab) hf

theorem fit_eof {pf : Platform} {fuel : Nat} {d : Slip} : Fit pf fuel d [.eof] := by
  refine ⟨?_, ?_, ?_, ?_, ?_⟩
  · intro k hk; rw [List.mem_singleton] at hk; subst hk; exact .eof
  all_goals
    intro a b
    intros
    rename_i h
    cases a with
    | nil => first | rfl | simp_all
    | cons c a => simp_all

theorem fit_chars {pf : Platform} {fuel : Nat} {ks : List Key} : ∀ (t : Str) {d : Slip}, (∀ c ∈ t, printable c = true) → Fit pf fuel { d with line := (t.map Key.ascii).foldl Zip.key d.line } ks → Fit pf fuel d (t.map .ascii ++ ks)
  | [], _, _, h => h
  | c :: t, d, hc, h => fit_edit (.ascii (hc c (by simp))) (fit_chars t (fun c hm => hc c (by simp [hm])) h)

/-- Enter, after a line of which this is known. -/
theorem fit_enter {fuel : Nat} {d : Slip} {l : Str} {s' : Stand} {t : Str} {ks : List Key} (ht : d.text = l) (hr : Readable plat l)
    (h : d.stand.Answer l s' t ∧ ¬ Fails d.stand.book l ∧ ¬ Bang l ∧ ¬ Quits d.stand.book l ∧ ¬ Lex.Line l []) (hf : Fit plat fuel ⟨s'.prompted, ⟨[], []⟩, none⟩ ks) : Fit plat fuel d (.ret :: ks) := by
  subst ht
  obtain ⟨h1, h2, h3, h4, h5⟩ := h
  exact fit_cons (o := d.stand.echoes d.text ++ bs!"\r\n" ++ t ++ s'.prompt) .ret (fun a d' o h => .enter h1 (.inr ⟨h5, rfl⟩) h) (fun _ => ⟨⟨.plain hr h3, h2⟩, h4⟩) (by simp) (by simp) hf

/-- What the beginning of `color` can be completed to, if it is enabled. -/
theorem offers_co {s : Stand} (h : s.panel.color = true) : s.Offers bs!"co" [bs!"color"] := by
  refine ⟨by simp, fun c => ?_⟩
  rw [List.mem_singleton]
  constructor
  · rintro rfl
    exact ((C137_offered s).1 bs!"co" (by decide) (by decide)).2 h
  · rintro ⟨gap, typed, e, hg, h1, h2⟩
    obtain ⟨rfl, rfl⟩ := Completion.gap_unique hg (show Gap [] bs!"co" from ⟨by simp, by decide⟩) (by simpa using e.symm)
    have : ∀ x ∈ [bs!"help", bs!"exit", bs!"history", bs!"!", bs!"hello", bs!"color", bs!"nocolor"], bs!"co" <+: x → x = bs!"color" := by decide
    refine this c ?_ h2
    simp only [Stand.names] at h1
    split at h1 <;> split at h1 <;> simp only [List.mem_append, List.mem_cons, List.not_mem_nil, or_false, List.append_nil] at h1 ⊢ <;> tauto

/-- And if it is not. -/
theorem offers_none {s : Stand} (h : s.panel.color = false) : s.Offers bs!"co" [] := by
  refine ⟨by simp, fun c => ?_⟩
  simp only [List.not_mem_nil, false_iff]
  rintro ⟨gap, typed, e, hg, h1, h2⟩
  obtain ⟨rfl, rfl⟩ := Completion.gap_unique hg (show Gap [] bs!"co" from ⟨by simp, by decide⟩) (by simpa using e.symm)
  have : ∀ x ∈ [bs!"help", bs!"exit", bs!"history", bs!"!", bs!"hello", bs!"nocolor"], ¬ bs!"co" <+: x := by decide
  refine this c ?_ h2
  simp only [Stand.names, h, Bool.false_eq_true, if_false] at h1
  split at h1 <;> simp only [List.mem_append, List.mem_cons, List.not_mem_nil, or_false, List.append_nil, if_false, Bool.false_eq_true] at h1 ⊢ <;> tauto

theorem color_line {s : Stand} (h : s.panel.color = true) : s.Answer bs!"color " { s with panel := { s.panel with color := false, nocolor := true, on := true }, book := s.book.record bs!"color " } bs!"Colors ON\n" ∧ ¬ Fails s.book bs!"color " ∧
    ¬ Bang bs!"color " ∧ ¬ Quits s.book bs!"color " ∧ ¬ Lex.Line bs!"color " [] := by
  have hl : Lex.Line bs!"color " [bs!"color"] := (split_iff _ _).1 rfl
  have hn : ¬ Bang bs!"color " := not_bang hl (by decide)
  refine ⟨.does hl (.color h) (by decide), plain_no_fail hn, hn, ?_, fun h => by cases line_same hl h⟩
  intro h
  cases h with
  | exit h => cases line_same hl h
  | again h _ _ => exact hn ⟨_, h⟩

/-- `color` is completed, after a mistake; then there is nothing that `co` can be completed to; the line is shown again; and Ctrl-D. -/
def pressed : List Key := bs!"cx".map .ascii ++ [.backspace, .ascii b%'o', .ascii 9, .ret, .ascii b%'c', .ascii b%'o', .ascii 9, .up, .eof]

/-- The hypothesis of the theorems is satisfiable. -/
theorem rehearsal_pressed : Rehearsal plat 20 (Slip.start true) pressed := by
  refine ⟨?_, pressed.dropLast, .eof, rfl, fun _ _ _ => .inl rfl⟩
  have rd : Readable plat bs!"color " := by unfold Readable; decide
  refine fit_chars bs!"cx" (by decide) (fit_edit .backspace (fit_edit (.ascii (by decide)) (fit_cons (o := []) .tab (fun _ _ _ h => .tabOne (c := bs!"color") (offers_co rfl) h) (by simp) (by simp) (by intro _; decide) ?_)))
  refine fit_enter (by decide) rd (color_line rfl) ?_
  refine fit_edit (.ascii (by decide)) (fit_edit (.ascii (by decide)) (fit_cons (o := []) .tab (fun _ _ _ h => .tabNone (offers_none rfl) h) (by simp) (by simp) (by intro _; decide) ?_))
  exact fit_cons (o := []) .up (fun _ _ _ h => .up h) (by simp) (by simp) (by simp) fit_eof

/-- These are the keys for what is typed. -/
example : (decode plat .first bs!"cx\x7fo\t\nco\t\x1b[A\x04").2 = pressed := by decide +kernel

/-- What the program then writes, on something that is not a terminal; the timer expires after Backspace. -/
example : (match interface (α := Bool) plat (fun _ => false) true false with
      | .ok (l, none) =>
        (match run (app plat) (·.stopped) 22 plat (fun _ => false) (bs!"cx\x7f".flatMap stroke ++ [.own 0] ++ bs!"o\t".flatMap stroke) ⟨⟨l, .run⟩, timer⟩ with | .ok (some (s, none)) => some (s.prog.loc.proc.w.io.out, s.prog.loc.proc.term.line) | _ => none)
      | _ => none) =
    some (bs!"cli> cx\x08 \x08Timer expired!\no\x08\x08color ", bs!"color ") := by decide +kernel

/-- The hypotheses of `C137_undefined` are satisfiable: `! 0`, after a mistake. -/
example : ∃ d o, Fit plat 20 (Slip.start true) (bs!"! x".map .ascii ++ [.backspace, .ascii b%'0']) ∧ Drafting (Slip.start true) (bs!"! x".map .ascii ++ [.backspace, .ascii b%'0']) d o ∧
    Within plat 21 d.stand.book d.text ∧ Fails d.stand.book d.text := by
  have hrec : Showcase.Recalls bs!"! 0" 0 := Showcase.recalls_one
  refine ⟨⟨Stand.start true, ⟨bs!"0 !", []⟩, none⟩, [], fit_chars bs!"! x" (by decide) (fit_edit .backspace (fit_edit (.ascii (by decide)) fit_nil)),
    .edit (.ascii (by decide)) (.edit (.ascii (by decide)) (.edit (.ascii (by decide)) (.edit .backspace (.edit (.ascii (by decide)) .nil)))), ?_⟩
  refine ⟨.again (line := bs!"! 0") (by unfold Readable; decide) hrec fun c hc => ?_, .empty (line := bs!"! 0") ⟨0, hrec⟩ (.inr (by decide +kernel))⟩
  have : (skipped (Stand.start true).book bs!"! 0").listing = [] := by decide +kernel
  rw [show (skipped (⟨Stand.start true, ⟨bs!"0 !", []⟩, none⟩ : Slip).stand.book bs!"! 0").listing = [] from this] at hc
  cases hc

/-- The program after these keys: what is being typed, and the screen. -/
def typedOn (ks : List Key) : Option (Str × Screen) :=
  match interface (α := Unit) plat id () false with
  | .ok (l, none) =>
    match Processor.run (app plat) 22 ks l.proc with
    | .ok (q, none) => some (q.term.line, (scr (fun _ _ => b%' ') 0 0 [] 0).run q.w.io.out)
    | _ => none
  | _ => none

/-- **C137**, the full statement is refuted: with a character in the history that cannot be printed (Ctrl-G), the arrows delete the prompt. -/
theorem C137_refuted : (decode plat .first bs!"x\x07\x07\n\x1b[A\x1b[B").2 = [.ascii b%'x', .ascii 7, .ascii 7, .ret, .up, .down] ∧
    (typedOn [.ascii b%'x', .ascii 7, .ascii 7, .ret]).map (fun x => (x.1, x.2.cell 2 2, x.2.cell 2 3)) = some ([], b%'i', b%'>') ∧
    (typedOn [.ascii b%'x', .ascii 7, .ascii 7, .ret, .up, .down]).map (fun x => (x.1, x.2.cell 2 2, x.2.cell 2 3)) = some ([], b%'i', b%' ') := by
  decide +kernel

end Verif.Hosted
