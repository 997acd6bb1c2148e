import Verif.Props.Terminal
import Verif.Spec.Wide

set_option linter.unusedSimpArgs false

/-!
# Property C94: long lines on the display
-/

namespace Verif.Props
open Verif.Terminal Verif.Spec

/-- The two displays look the same. -/
structure Looks (W : Nat) (s t : WideScreen) : Prop where
  row : s.row = t.row
  col : s.col = t.col
  esc : s.esc = t.esc
  pending : s.pending = t.pending
  cell : ∀ r c, c < W → s.cell r c = t.cell r c

/-! ### As long as the cursor does not come to the margin -/

/-- All the states from `s` on have their cursor left of the margin. -/
def Within (W : Nat) : Screen → Str → Prop
  | s, [] => s.col < W
  | s, ch :: bs => s.col < W ∧ Within W (s.step ch) bs

theorem within_append {W : Nat} {a b : Str} : ∀ {s : Screen}, Within W s a → Within W (s.run a) b → Within W s (a ++ b) := by
  induction a with
  | nil => intro s _ h; exact h
  | cons x a ih => intro s h1 h2; exact ⟨h1.1, ih h1.2 h2⟩

theorem within_start {W : Nat} {s : Screen} {a : Str} (h : Within W s a) : s.col < W := by
  cases a with
  | nil => exact h
  | cons x a => exact h.1

theorem wide_step {W : Nat} {s : Screen} {ch : Byte} (h : s.col < W) (h' : (s.step ch).col < W) : s.wide.step W ch = (s.step ch).wide := by
  obtain ⟨cell, row, col, e⟩ := s
  cases e with
  | normal =>
    simp only [Screen.wide, Screen.step, WideScreen.step] at h h' ⊢
    by_cases c1 : ch = 8
    · simp [c1]
    by_cases c2 : ch = 9
    · simp only [c2] at h' ⊢
      simp at h' ⊢
      omega
    by_cases c3 : ch = 10
    · simp [c3]
    by_cases c4 : ch = 13
    · simp [c4]
    by_cases c5 : ch = 27
    · simp [c5]
    by_cases c6 : ch.toNat < 32 ∨ ch = 127
    · simp only [c1, c2, c3, c4, c5, c6, if_true, if_false]
    · simp only [c1, c2, c3, c4, c5, c6, if_false, Screen.putChar] at h' ⊢
      simp [WideScreen.wrap, WideScreen.write, h']
  | esc => simp only [Screen.wide, Screen.step, WideScreen.step]; split <;> rfl
  | csi ps =>
    simp only [Screen.wide, Screen.step, WideScreen.step, Screen.eraseBelow, WideScreen.eraseBelow]
    split
    · rfl
    · split
      · rfl
      · split <;> rfl

theorem wide_run {W : Nat} {a : Str} : ∀ {s : Screen}, Within W s a → s.wide.run W a = (s.run a).wide := by
  induction a with
  | nil => intro s _; rfl
  | cons x a ih =>
    intro s h
    have e : s.wide.run W (x :: a) = (s.wide.step W x).run W a := rfl
    rw [e, wide_step h.1 (within_start h.2), ih h.2, run_cons]

theorem within_text {W : Nat} (base : Nat → Nat → Byte) (R p : Nat) (s : Str) (hs : Printable s) : ∀ (line : Str) (pos : Nat), pos ≤ line.length → p + pos + s.length < W →
    Within W (scr base R p line pos) s := by
  induction s with
  | nil => intro line pos _ h; exact h
  | cons c s ih =>
    intro line pos hl h
    simp only [List.length_cons] at h
    refine ⟨by simp only [scr]; omega, ?_⟩
    rw [step_printable _ _ rfl (hs c (by simp)), putChar_scr _ _ _ _ _ _ hl]
    exact ih (fun d hd => hs d (by simp [hd])) _ _ (by have := overwrite_length line pos [c] hl; simpa using this) (by omega)

theorem within_bs {W : Nat} (base : Nat → Nat → Byte) (R p : Nat) (line : Str) (n : Nat) : ∀ pos, n ≤ pos → p + pos < W → Within W (scr base R p line pos) (rep n bs) := by
  induction n with
  | zero => intro pos _ h; exact h
  | succ n ih =>
    intro pos h1 h2
    refine ⟨h2, ?_⟩
    have : (scr base R p line pos).step bs = scr base R p line (pos - 1) := by
      have := run_bs base R p line 1 pos (by omega)
      exact this
    rw [this]
    exact ih _ (by omega) (by omega)

theorem within_digits {W : Nat} (ds : Str) (hd : ∀ d ∈ ds, isDigit d = true) : ∀ (s : Screen) (ps : Str), s.esc = .csi ps → s.col < W → Within W s ds := by
  induction ds with
  | nil => intro s _ _ h; exact h
  | cons d ds ih =>
    intro s ps hs h
    refine ⟨h, ?_⟩
    have e : s.step d = { s with esc := .csi (ps ++ [d]) } := by unfold Screen.step; rw [hs]; simp [hd d (by simp)]
    rw [e]
    exact ih (fun x hx => hd x (by simp [hx])) _ _ rfl h

theorem within_sgr {W : Nat} (s : Screen) (n : Nat) (hn : s.esc = .normal) (h : s.col < W) : Within W s (27 :: b%'[' :: decimal n ++ [b%'m']) := by
  have e1 : s.step 27 = { s with esc := .esc } := by simp [Screen.step, hn]
  have e2 : ({ s with esc := .esc } : Screen).step b%'[' = { s with esc := .csi [] } := by simp [Screen.step]
  have h1 : Within W s [27, b%'['] := by
    refine ⟨h, ?_, ?_⟩
    · rw [e1]; exact h
    · rw [e1, e2]; exact h
  have e3 : s.run [27, b%'['] = { s with esc := .csi [] } := by rw [run_cons, e1, run_cons, e2, run_nil]
  have h2 : Within W ({ s with esc := .csi [] } : Screen) (decimal n) := within_digits _ (decimal_digits n) _ [] rfl h
  have h3 : Within W (({ s with esc := .csi [] } : Screen).run (decimal n)) [b%'m'] := by
    rw [run_csi_digits _ [] _ (decimal_digits n) rfl]
    refine ⟨h, ?_⟩
    simp only [Screen.step, Within]
    split
    · exact h
    · split
      · rename_i hh; exact absurd hh.1 (by decide)
      · split
        · rename_i hh; exact absurd hh.1 (by decide)
        · exact h
  have := within_append h1 (b := decimal n ++ [b%'m']) (by rw [e3]; exact within_append h2 h3)
  simpa using this

/-- What has been written stays within the margin. -/
def Kept (W : Nat) (s0 : Screen) (io : Io) : Prop := Within W s0 io.out

theorem kept_put {W : Nat} {s0 : Screen} {io : Io} {t : Str} (h : Kept W s0 io) (ht : Within W (s0.run io.out) t) : Kept W s0 (io.put t) := within_append h ht

theorem kept_col {W : Nat} {s0 : Screen} {io : Io} (h : Kept W s0 io) : (s0.run io.out).col < W := by
  have : ∀ (a : Str) (s : Screen), Within W s a → (s.run a).col < W := by
    intro a; induction a with
    | nil => intro s h; exact h
    | cons x a ih => intro s h; exact ih _ h.2
  exact this _ _ h

theorem kept_sgr {W : Nat} {s0 : Screen} {io : Io} (n : Nat) (h : Kept W s0 io) (hn : (s0.run io.out).esc = .normal) : Kept W s0 (io.sgr n) := by
  unfold Io.sgr
  split
  · exact kept_put h (within_sgr _ n hn (kept_col h))
  · exact h

theorem kept_beforeInput {W : Nat} {s0 : Screen} {io : Io} (h : Kept W s0 io) (hn : (s0.run io.out).esc = .normal) : Kept W s0 io.beforeInput := by
  unfold Io.beforeInput
  split
  · exact kept_sgr (io := io.force) 97 h hn
  · exact h

theorem kept_afterInput {W : Nat} {s0 : Screen} {io : Io} (h : Kept W s0 io) (hn : (s0.run io.out).esc = .normal) : Kept W s0 io.afterInput := kept_sgr 0 h hn

theorem keypressed_kept {W : Nat} (s0 : Screen) (base : Nat → Nat → Byte) (R p : Nat) (t t' : Term) (z : Zip) (io io' : Io) (k : Key) (y : Symbol) (h : Rep t z)
    (hp : Printable z.text) (hk : EditKey k) (hd : s0.run io.out = scr base R p z.text z.before.length) (hw : Kept W s0 io)
    (h1 : p + z.text.length < W) (h2 : p + (z.key k).text.length < W) (hr : keypressed t io k = .ok (t', io', y)) : Kept W s0 io' := by
  rw [rep_eq h] at hr
  obtain ⟨b, a⟩ := z
  simp only [Zip.text] at hp hd h1
  obtain ⟨hpb, hpa⟩ := printable_append.1 hp
  have hn : (s0.run io.out).esc = .normal := by rw [hd]; rfl
  simp only [List.length_append, List.length_reverse] at h1
  cases k with
  | ascii c =>
    by_cases hc : c = b%'\t'
    · simp [keypressed, hc] at hr; rw [← hr.2.1]; exact hw
    · have hpc : printable c = true := by rcases hk with hk | hk; exact hk; exact absurd hk hc
      simp only [Zip.key, hc, if_false, Zip.text, List.length_append, List.length_reverse, List.length_cons] at h2
      simp only [keypressed, hc, if_false, suffix, repSub, insertAt, List.length_append, List.length_reverse,
        Nat.le_add_right, if_true, bind, Except.bind, drop_rev, take_rev, Nat.add_sub_cancel_left, Except.ok.injEq, Prod.mk.injEq] at hr
      obtain ⟨_, hr, _⟩ := hr
      rw [← hr]
      have e : s0.run (((io.beforeInput).put [c]).put a).out = scr base R p (b.reverse ++ c :: a) (b.length + (c :: a).length) := by
        rw [run_put, run_put, run_beforeInput _ _ hn, hd, ← run_append]
        have := run_over base R p b a (c :: a) (by rw [printable_cons]; exact ⟨hpc, hpa⟩)
        rw [List.drop_eq_nil_of_le (by simp), List.append_nil] at this
        simpa using this
      have e1 : Kept W s0 (((io.beforeInput).put [c]).put a) := by
        have : Kept W s0 (io.beforeInput.put (c :: a)) := by
          refine kept_put (kept_beforeInput hw hn) ?_
          rw [run_beforeInput _ _ hn, hd]
          exact within_text base R p _ (by rw [printable_cons]; exact ⟨hpc, hpa⟩) _ _ (by simp) (by simp; omega)
        simpa [Kept, Io.put] using this
      refine kept_put (kept_afterInput e1 (by rw [e]; rfl)) ?_
      rw [run_afterInput _ _ (by rw [e]; rfl), e]
      exact within_bs _ _ _ _ _ _ (by simp; omega) (by simp; omega)
  | backspace =>
    cases b with
    | nil => simp [keypressed] at hr; rw [← hr.2.1]; exact hw
    | cons x b =>
      have e1 : (b.reverse ++ [x] ++ a) = b.reverse ++ x :: a := by simp
      simp only [keypressed, List.length_cons, Nat.add_sub_cancel, eraseAt, List.reverse_cons, e1,
        eraseIdx_mid, suffix, repSub, bind, Except.bind] at hr
      have : b.length < (b.reverse ++ x :: a).length := by simp
      simp only [this, if_true] at hr
      have : b.length ≤ (b.reverse ++ a).length := by simp
      simp only [this, if_true] at hr
      have : b.length ≤ (b.reverse ++ a).length + 1 := by simp; omega
      simp only [this, if_true] at hr
      rw [if_neg (by omega)] at hr
      simp only [Except.ok.injEq, Prod.mk.injEq] at hr
      obtain ⟨_, hr, _⟩ := hr
      rw [← hr]
      have e2 : s0.run (io.put [bs]).out = scr base R p (b.reverse ++ x :: a) b.length := by
        have := run_bs base R p ((x :: b).reverse ++ a) 1 (b.length + 1) (by omega)
        rw [run_put, hd]
        simpa [rep] using this
      have e3 : Kept W s0 (io.put [bs]) := by
        refine kept_put hw ?_
        rw [hd]
        exact within_bs base R p _ 1 _ (by simp) (by simp at h1 ⊢; omega)
      have hs : Printable (a ++ [b%' ']) := by rw [printable_append]; exact ⟨hpa, by simp [Printable, printable_space]⟩
      have e4 : Kept W s0 (((io.put [bs]).put ((b.reverse ++ a).drop b.length)).put [b%' ']) := by
        have : Kept W s0 ((io.put [bs]).put (a ++ [b%' '])) := by
          refine kept_put e3 ?_
          rw [e2]
          exact within_text base R p _ hs _ _ (by simp) (by simp at h1 ⊢; omega)
        simpa [Kept, Io.put, drop_rev] using this
      refine kept_put e4 ?_
      rw [drop_rev, run_put, run_put, e2, ← run_append _ a [b%' '], run_over _ _ _ _ _ _ hs]
      exact within_bs _ _ _ _ _ _ (by simp; omega) (by simp at h1 ⊢; omega)
  | canc =>
    cases a with
    | nil => simp [keypressed] at hr; rw [← hr.2.1]; exact hw
    | cons x a =>
      have g1 : b.length < (b.reverse ++ x :: a).length := by simp
      have g2 : b.length + 1 ≤ (b.reverse ++ x :: a).length := by omega
      have g3 : b.length ≤ (b.reverse ++ x :: a).length := by omega
      have g4 : ¬ (b.length = (b.reverse ++ x :: a).length) := by omega
      have e4 : (b.reverse ++ x :: a).drop (b.length + 1) = a := by rw [← List.drop_drop, drop_rev]; rfl
      simp only [keypressed, eraseAt, eraseIdx_mid, suffix, repSub, bind, Except.bind, g1, g2, g3, g4, if_true, if_false, e4, Except.ok.injEq, Prod.mk.injEq] at hr
      obtain ⟨_, hr, _⟩ := hr
      rw [← hr]
      have ha : Printable a := (printable_cons.1 hpa).2
      have hs : Printable (a ++ [b%' ']) := by rw [printable_append]; exact ⟨ha, by simp [Printable, printable_space]⟩
      simp only [List.length_cons] at h1
      have e5 : Kept W s0 ((io.put a).put [b%' ']) := by
        have : Kept W s0 (io.put (a ++ [b%' '])) := by
          refine kept_put hw ?_
          rw [hd]
          exact within_text base R p _ hs _ _ (by simp) (by simp; omega)
        simpa [Kept, Io.put] using this
      refine kept_put e5 ?_
      rw [run_put, run_put, hd, ← run_append _ a [b%' '], run_over _ _ _ _ _ _ hs]
      exact within_bs _ _ _ _ _ _ (by simp) (by simp; omega)
  | left =>
    cases b with
    | nil => simp [keypressed] at hr; rw [← hr.2.1]; exact hw
    | cons x b =>
      simp [keypressed] at hr
      rw [← hr.2.1]
      refine kept_put hw ?_
      rw [hd]
      exact within_bs base R p _ 1 _ (by simp) (by simp at h1 ⊢; omega)
  | right =>
    cases a with
    | nil => simp [keypressed] at hr; rw [← hr.2.1]; exact hw
    | cons x a =>
      have hx : printable x = true := (printable_cons.1 hpa).1
      simp [keypressed] at hr
      rw [← hr.2.1]
      simp only [List.length_cons] at h1
      have e : s0.run (io.beforeInput.put [x]).out = scr base R p (b.reverse ++ x :: a) (b.length + 1) := by
        rw [run_put, run_beforeInput _ _ hn, hd, run_over _ _ _ _ _ _ (by simp [Printable, hx])]
        simp
      refine kept_afterInput (kept_put (kept_beforeInput hw hn) ?_) (by rw [e]; rfl)
      rw [run_beforeInput _ _ hn, hd]
      exact within_text base R p _ (by simp [Printable, hx]) _ _ (by simp) (by simp; omega)
  | home =>
    simp [keypressed] at hr
    rw [← hr.2.1]
    refine kept_put hw ?_
    rw [hd]
    exact within_bs base R p _ _ _ (Nat.le_refl _) (by omega)
  | «end» =>
    simp [keypressed, suffix, bind, Except.bind] at hr
    rw [← hr.2.1]
    have e : s0.run (io.beforeInput.put a).out = scr base R p (b.reverse ++ a) (b.length + a.length) := by
      rw [run_put, run_beforeInput _ _ hn, hd, run_over _ _ _ _ _ _ hpa]
      simp
    refine kept_afterInput (kept_put (kept_beforeInput hw hn) ?_) (by rw [e]; rfl)
    rw [run_beforeInput _ _ hn, hd]
    exact within_text base R p _ hpa _ _ (by simp) (by omega)
  | ret => exact hk.elim
  | up => simp [keypressed] at hr; rw [← hr.2.1]; exact hw
  | down => simp [keypressed] at hr; rw [← hr.2.1]; exact hw
  | eof => simp [keypressed] at hr; rw [← hr.2.1]; exact hw
  | ignored => simp [keypressed] at hr; rw [← hr.2.1]; exact hw
  | clear => simp [keypressed] at hr; rw [← hr.2.1]; exact hw

theorem setLine_kept {W : Nat} (s0 : Screen) (base : Nat → Nat → Byte) (R p : Nat) (t : Term) (io : Io) (new : Str) (hp : t.pos ≤ t.line.length)
    (hnew : Printable new) (hd : s0.run io.out = scr base R p t.line t.pos) (hw : Kept W s0 io) (h1 : p + t.line.length < W) (h2 : p + new.length < W) :
    Kept W s0 (setLine t io new).2 := by
  have hn : (s0.run io.out).esc = .normal := by rw [hd]; rfl
  have e0 : s0.run (io.beforeInput.put (rep t.pos bs)).out = scr base R p t.line 0 := by
    rw [run_put, run_beforeInput _ _ hn, hd, run_bs _ _ _ _ _ _ (Nat.le_refl _), Nat.sub_self]
  have e1 : s0.run ((io.beforeInput.put (rep t.pos bs)).put new).out = scr base R p (new ++ t.line.drop new.length) new.length := by
    rw [run_put, e0, run_text _ _ _ _ hnew _ _ (Nat.zero_le _), overwrite_zero, Nat.zero_add]
  have k0 : Kept W s0 (io.beforeInput.put (rep t.pos bs)) := by
    refine kept_put (kept_beforeInput hw hn) ?_
    rw [run_beforeInput _ _ hn, hd]
    exact within_bs _ _ _ _ _ _ (Nat.le_refl _) (by omega)
  have k1 : Kept W s0 ((io.beforeInput.put (rep t.pos bs)).put new) := by
    refine kept_put k0 ?_
    rw [e0]
    exact within_text _ _ _ _ hnew _ _ (Nat.zero_le _) (by omega)
  have e2 : s0.run (((io.beforeInput.put (rep t.pos bs)).put new).afterInput).out = scr base R p (new ++ t.line.drop new.length) new.length := by
    rw [run_afterInput _ _ (by rw [e1]; rfl), e1]
  have k2 := kept_afterInput k1 (by rw [e1]; rfl)
  unfold setLine
  simp only
  split
  · rename_i h
    have hs : Printable (rep (t.line.length - new.length) b%' ') := by
      intro c hc; simp [rep] at hc; rw [hc.2]; decide
    refine kept_put (kept_put k2 ?_) ?_
    · rw [e2]
      exact within_text _ _ _ _ hs _ _ (by simp) (by simp [rep]; omega)
    · have := run_over base R p new.reverse (t.line.drop new.length) _ hs
      simp only [List.reverse_reverse, List.length_reverse] at this
      rw [run_put, e2, this]
      exact within_bs _ _ _ _ _ _ (by simp [rep]) (by simp [rep]; omega)
  · exact k2

/-- The lines edited on the way, by the specification. -/
def texts : List EdOp → Zip → List Str
  | [], z => [z.text]
  | .key k :: ops, z => z.text :: texts ops (z.key k)
  | .set s :: ops, z => z.text :: texts ops (Zip.ofLine s)

theorem texts_head (ops : List EdOp) (z : Zip) : z.text ∈ texts ops z := by
  cases ops with
  | nil => simp [texts]
  | cons o ops => cases o <;> simp [texts]

theorem looks_scr {W : Nat} (base : Nat → Nat → Byte) (R p : Nat) (line : Str) (pos : Nat) (h : p + line.length < W) (hp : pos ≤ line.length) :
    Looks W (scr base R p line pos).wide (wscr W base R p line pos) := by
  have h1 : (p + pos) % W = p + pos := Nat.mod_eq_of_lt (by omega)
  have h2 : (p + pos) / W = 0 := Nat.div_eq_of_lt (by omega)
  have h3 : ¬ ((p + pos) % W = 0 ∧ 0 < pos) := by omega
  refine ⟨?_, ?_, rfl, ?_, ?_⟩
  · simp only [Screen.wide, scr, wscr, if_neg h3, h2, Nat.add_zero]
  · simp only [Screen.wide, scr, wscr, if_neg h3]; exact h1.symm
  · simp only [Screen.wide, scr, wscr]; simp; omega
  · intro r c hc
    simp only [Screen.wide, scr, wscr]
    by_cases a1 : r < R
    · simp [a1]
    · by_cases a2 : r = R
      · subst a2
        by_cases a3 : c < p
        · simp [a3]
        · rw [if_neg a1, if_pos rfl, if_neg a3, if_neg (by omega)]
          simp
      · have a4 : 1 ≤ r - R := by omega
        rw [if_neg a1, if_neg a2, if_neg (by omega)]
        have a5 : W ≤ (r - R) * W := Nat.le_mul_of_pos_left W a4
        rw [List.getD_eq_getElem?_getD, List.getElem?_eq_none (by omega)]
        rfl

/-- **C94** (part) On a display with `W` columns: as long as prompt and line stay shorter than `W`, the display shows the line after the prompt with the cursor at the editing position, after every sequence
    of editing keys and line replacements. Missing: longer lines (refuted below, but see `C94_typing_partial`). -/
theorem C94_short_partial (W : Nat) (ops : List EdOp) : ∀ (t : Term) (z : Zip) (io : Io) (s0 : Screen) (base : Nat → Nat → Byte) (R p : Nat),
    (∀ op ∈ ops, op.editing) → Printable z.text → t.line = z.text → t.pos = z.before.length →
    s0.run io.out = scr base R p t.line t.pos → Kept W s0 io → (∀ l ∈ texts ops z, p + l.length < W) →
    ∃ t' io' ys, edRun ops t io = .ok (t', io', ys) ∧ Looks W (s0.wide.run W io'.out) (wscr W base R p t'.line t'.pos) := by
  suffices key : ∀ (t : Term) (z : Zip) (io : Io) (s0 : Screen) (base : Nat → Nat → Byte) (R p : Nat),
      (∀ op ∈ ops, op.editing) → Printable z.text → t.line = z.text → t.pos = z.before.length →
      s0.run io.out = scr base R p t.line t.pos → Kept W s0 io → (∀ l ∈ texts ops z, p + l.length < W) →
      ∃ t' io' ys, edRun ops t io = .ok (t', io', ys) ∧ s0.run io'.out = scr base R p t'.line t'.pos ∧ Kept W s0 io' ∧ p + t'.line.length < W ∧ t'.pos ≤ t'.line.length by
    intro t z io s0 base R p h1 h2 h3 h4 h5 h6 h7
    obtain ⟨t', io', ys, h, hd, hk, hl, hq⟩ := key t z io s0 base R p h1 h2 h3 h4 h5 h6 h7
    refine ⟨t', io', ys, h, ?_⟩
    rw [wide_run hk, hd]
    exact looks_scr base R p _ _ hl hq
  induction ops with
  | nil =>
    intro t z io s0 base R p _ _ h1 h2 hd hk hl
    exact ⟨t, io, [], rfl, hd, hk, by rw [h1]; exact hl _ (by simp [texts]), by rw [h1, h2]; simp [Zip.text]⟩
  | cons op ops ih =>
    intro t z io s0 base R p ho hp h1 h2 hd hw hl
    have ho' : ∀ op ∈ ops, op.editing := fun o h => ho o (by simp [h])
    have ho1 := ho op (by simp)
    have hl0 := hl _ (texts_head _ z)
    cases op with
    | key k =>
      have hl1 : ∀ l ∈ texts ops (z.key k), p + l.length < W := fun l h => hl l (by simp [texts, h])
      obtain ⟨hp1, t1, io1, hk, hr1, hd1⟩ := keypressed_display s0 base R p t z io k ⟨h1, h2⟩ hp ho1 (by rw [hd, h1, h2])
      have hw1 := keypressed_kept (W := W) s0 base R p t t1 z io io1 k _ ⟨h1, h2⟩ hp ho1 (by rw [hd, h1, h2]) hw hl0 (hl1 _ (texts_head _ _)) hk
      obtain ⟨t', io', ys, hr, hd'⟩ := ih t1 (z.key k) io1 s0 base R p ho' hp1 hr1.1 hr1.2 (by rw [hd1, hr1.1, hr1.2]) hw1 hl1
      exact ⟨t', io', z.request k :: ys, by simp only [edRun, hk, hr, bind, Except.bind], hd'⟩
    | set s =>
      have hl1 : ∀ l ∈ texts ops (Zip.ofLine s), p + l.length < W := fun l h => hl l (by simp [texts, h])
      have hpos : t.pos ≤ t.line.length := by rw [h1, h2]; simp [Zip.text]
      have hs := hl1 _ (texts_head _ _)
      simp only [Zip.ofLine, Zip.text, List.reverse_reverse, List.append_nil] at hs
      have hd1 := setLine_display s0 base R p t io t.line s hpos (.inl rfl) ho1 hd
      have hw1 := setLine_kept (W := W) s0 base R p t io s hpos ho1 hd hw (by rw [h1]; exact hl0) hs
      obtain ⟨t', io', ys, hr, hd'⟩ := ih ⟨s, s.length⟩ (Zip.ofLine s) (setLine t io s).2 s0 base R p ho' (by simpa [Zip.ofLine, Zip.text] using (show Printable s from ho1))
        (by simp [Zip.ofLine, Zip.text]) (by simp [Zip.ofLine]) hd1 hw1 hl1
      exact ⟨t', io', ys, hr, hd'⟩

/-! ### Typing beyond the margin -/

theorem wide_run_append (W : Nat) (s : WideScreen) (a b : Str) : s.run W (a ++ b) = (s.run W a).run W b := by simp [WideScreen.run]

theorem wide_run_digits (W : Nat) (ds : Str) (h : ∀ d ∈ ds, isDigit d = true) : ∀ (s : WideScreen) (ps : Str), s.esc = .csi ps → s.run W ds = { s with esc := .csi (ps ++ ds) } := by
  induction ds with
  | nil => intro s ps hs; simp [WideScreen.run, ← hs]
  | cons d ds ih =>
    intro s ps hs
    have e : s.step W d = { s with esc := .csi (ps ++ [d]) } := by unfold WideScreen.step; rw [hs]; simp [h d (by simp)]
    have e1 : s.run W (d :: ds) = (s.step W d).run W ds := rfl
    rw [e1, e, ih (fun x hx => h x (by simp [hx])) _ (ps ++ [d]) rfl]
    simp

theorem wide_run_sgr (W : Nat) (s : WideScreen) (n : Nat) (hn : s.esc = .normal) : s.run W (27 :: b%'[' :: decimal n ++ [b%'m']) = s := by
  have e0 : s.run W (27 :: b%'[' :: decimal n ++ [b%'m']) = (((s.step W 27).step W b%'[').run W (decimal n)).step W b%'m' := by
    rw [List.cons_append, List.cons_append]
    show ((s.step W 27).step W b%'[').run W (decimal n ++ [b%'m']) = _
    rw [wide_run_append]; rfl
  have e : ((s.step W 27).step W b%'[') = { s with esc := .csi [] } := by simp [WideScreen.step, hn]
  rw [e0, e, wide_run_digits W _ (decimal_digits n) _ [] rfl]
  simp only [List.nil_append, WideScreen.step]
  have h1 : isDigit b%'m' = false := by decide
  have h2 : (b%'m' = b%';') = False := by decide
  have h3 : (b%'m' = b%'H') = False := by decide
  have h4 : (b%'m' = b%'J') = False := by decide
  simp [h1, h2, h3, h4, ← hn]

theorem wide_put (W : Nat) (s : WideScreen) (io : Io) (t : Str) : s.run W (io.put t).out = (s.run W io.out).run W t := by simp [Io.put, wide_run_append]

theorem wide_io_sgr (W : Nat) (s : WideScreen) (io : Io) (n : Nat) (h : (s.run W io.out).esc = .normal) : s.run W (io.sgr n).out = s.run W io.out := by
  unfold Io.sgr
  split
  · rw [wide_put, wide_run_sgr _ _ _ h]
  · rfl

theorem wide_beforeInput (W : Nat) (s : WideScreen) (io : Io) (h : (s.run W io.out).esc = .normal) : s.run W io.beforeInput.out = s.run W io.out := by
  unfold Io.beforeInput
  split
  · exact wide_io_sgr W s io.force 97 h
  · rfl

theorem wide_afterInput (W : Nat) (s : WideScreen) (io : Io) (h : (s.run W io.out).esc = .normal) : s.run W io.afterInput.out = s.run W io.out := wide_io_sgr _ _ _ _ h

theorem wide_printable (W : Nat) (s : WideScreen) (c : Byte) (hn : s.esc = .normal) (hc : printable c = true) : s.step W c = s.wrap.write W c := by
  have h := hc
  simp only [printable, Bool.and_eq_true, decide_eq_true_eq] at h
  have hne : ∀ n : Nat, n < 32 ∨ n = 127 → n < 256 → c ≠ UInt8.ofNat n := by
    rintro n hn hn2 rfl
    rw [UInt8.toNat_ofNat_of_lt' (by simpa using hn2)] at h
    omega
  have h8 : c ≠ 8 := hne 8 (by omega) (by omega)
  have h9 : c ≠ 9 := hne 9 (by omega) (by omega)
  have h10 : c ≠ 10 := hne 10 (by omega) (by omega)
  have h13 : c ≠ 13 := hne 13 (by omega) (by omega)
  have h27 : c ≠ 27 := hne 27 (by omega) (by omega)
  have h127 : c ≠ 127 := hne 127 (by omega) (by omega)
  unfold WideScreen.step
  rw [hn]
  simp only [h8, h9, h10, h13, h27, h127, if_false, or_false]
  rw [if_neg (by omega)]

/-- Where character number `k` (counted from column 0 of row `R`) is shown. -/
theorem place (W R r c k : Nat) (hc : c < W) (hr : R ≤ r) : (r - R) * W + c = k ↔ r = R + k / W ∧ c = k % W := by
  have hW : 0 < W := by omega
  constructor
  · rintro rfl
    rw [Nat.mul_comm, Nat.mul_add_div hW, Nat.div_eq_of_lt hc, Nat.mul_add_mod, Nat.mod_eq_of_lt hc]
    omega
  · rintro ⟨rfl, rfl⟩
    rw [Nat.add_sub_cancel_left, Nat.mul_comm]; exact Nat.div_add_mod k W

/-- Typing one character at the end of the line. -/
theorem looks_type {W : Nat} (base : Nat → Nat → Byte) (R p : Nat) (line : Str) (c : Byte) (hc : printable c = true) (hp : p < W) (s : WideScreen)
    (h : Looks W s (wscr W base R p line line.length)) : Looks W (s.step W c) (wscr W base R p (line ++ [c]) (line.length + 1)) := by
  have hW : 0 < W := by omega
  rw [wide_printable W s c h.esc hc]
  -- the cursor after wrapping
  have hwrap : s.wrap.row = R + (p + line.length) / W ∧ s.wrap.col = (p + line.length) % W ∧ s.wrap.cell = s.cell ∧ s.wrap.esc = .normal := by
    have hrow := h.row; have hcol := h.col; have hpend := h.pending; have hesc := h.esc
    simp only [wscr] at hrow hcol hpend hesc
    by_cases hm : (p + line.length) % W = 0 ∧ 0 < line.length
    · rw [if_pos hm] at hrow hcol
      have : s.pending = true := by rw [hpend]; simpa using hm
      have hdiv : 1 ≤ (p + line.length) / W := by
        have := Nat.div_add_mod (p + line.length) W
        rcases Nat.eq_zero_or_pos ((p + line.length) / W) with h0 | h0
        · rw [h0, hm.1] at this; omega
        · exact h0
      simp only [WideScreen.wrap, this, if_true]
      exact ⟨by omega, hm.1.symm, trivial, hesc⟩
    · rw [if_neg hm] at hrow hcol
      have : s.pending = false := by rw [hpend]; simpa using hm
      simp only [WideScreen.wrap, this]
      exact ⟨hrow, hcol, rfl, hesc⟩
  obtain ⟨w1, w2, w3, w4⟩ := hwrap
  have hmod : (p + line.length) % W < W := Nat.mod_lt _ hW
  have hda := Nat.div_add_mod (p + line.length) W
  have e1 : ∀ k, (p + (line.length + 1)) = k → ((p + line.length) % W + 1 < W → k / W = (p + line.length) / W ∧ k % W = (p + line.length) % W + 1) ∧
      (¬ ((p + line.length) % W + 1 < W) → k / W = (p + line.length) / W + 1 ∧ k % W = 0) := by
    rintro k rfl
    constructor
    · intro hlt
      have : p + (line.length + 1) = W * ((p + line.length) / W) + ((p + line.length) % W + 1) := by omega
      rw [this]
      constructor
      · rw [Nat.mul_add_div hW, Nat.div_eq_of_lt hlt, Nat.add_zero]
      · rw [Nat.mul_add_mod, Nat.mod_eq_of_lt hlt]
    · intro hge
      have : p + (line.length + 1) = W * ((p + line.length) / W + 1) := by rw [Nat.mul_add]; omega
      constructor
      · rw [this, Nat.mul_div_cancel_left _ hW]
      · rw [this, Nat.mul_mod_right]
  obtain ⟨f1, f2⟩ := e1 _ rfl
  have hcell : ∀ r x, x < W → (s.wrap.write W c).cell r x = (wscr W base R p (line ++ [c]) (line.length + 1)).cell r x := by
    intro r x hx
    simp only [WideScreen.write, w1, w2, w3]
    have hold := h.cell r x hx
    simp only [wscr] at hold ⊢
    by_cases hreg : r < R ∨ (r = R ∧ x < p) ∨ W ≤ x
    · rw [if_pos hreg] at hold ⊢
      rw [if_neg ?_, hold]
      rintro ⟨rfl, rfl⟩
      rcases hreg with hh | ⟨hh, hh2⟩ | hh
      · exact absurd hh (Nat.not_lt.2 (Nat.le_add_right _ _))
      · have h0 : (p + line.length) / W = 0 := by omega
        rw [h0] at hda; omega
      · omega
    · rw [if_neg hreg] at hold ⊢
      have hR : R ≤ r := by omega
      have hpl := place W R r x (p + line.length) hx hR
      by_cases hhere : r = R + (p + line.length) / W ∧ x = (p + line.length) % W
      · rw [if_pos hhere, hpl.2 hhere]
        rw [show p + line.length - p = line.length by omega]
        simp
      · rw [if_neg hhere, hold]
        have hne : (r - R) * W + x ≠ p + line.length := fun hh => hhere (hpl.1 hh)
        have hge : p ≤ (r - R) * W + x := by
          by_cases hrr : r = R
          · omega
          · have := Nat.le_mul_of_pos_left W (show 0 < r - R by omega); omega
        generalize (r - R) * W + x = k at hne hge
        simp only [List.getD_eq_getElem?_getD, List.getElem?_append]
        split
        · rfl
        · rename_i hlt
          rw [List.getElem?_eq_none (l := line) (by omega), List.getElem?_eq_none (by simp; omega)]
  by_cases hlt : (p + line.length) % W + 1 < W
  · obtain ⟨g1, g2⟩ := f1 hlt
    have hn : ¬ ((p + (line.length + 1)) % W = 0 ∧ 0 < line.length + 1) := by omega
    refine ⟨?_, ?_, w4, ?_, hcell⟩
    · simp only [WideScreen.write, wscr, if_neg hn, w1, g1]
    · simp only [WideScreen.write, wscr, if_neg hn, w2, if_pos hlt]; exact g2.symm
    · simp only [WideScreen.write, wscr, w2]
      rw [decide_eq_true hlt, decide_eq_false hn]; rfl
  · obtain ⟨g1, g2⟩ := f2 hlt
    have hn : ((p + (line.length + 1)) % W = 0 ∧ 0 < line.length + 1) := by omega
    refine ⟨?_, ?_, w4, ?_, hcell⟩
    · simp only [WideScreen.write, wscr, if_pos hn, w1, g1]; omega
    · simp only [WideScreen.write, wscr, if_pos hn, w2, if_neg hlt]; omega
    · simp only [WideScreen.write, wscr, w2]
      rw [decide_eq_false hlt, decide_eq_true hn]; rfl

/-- A key that types a character at the end of the line. -/
theorem type_end (W : Nat) (base : Nat → Nat → Byte) (R p : Nat) (hp : p < W) (line : Str) (c : Byte) (hc : printable c = true) (io : Io) (s0 : WideScreen)
    (h : Looks W (s0.run W io.out) (wscr W base R p line line.length)) :
    ∃ io', keypressed ⟨line, line.length⟩ io (.ascii c) = .ok (⟨line ++ [c], line.length + 1⟩, io', .nothing) ∧
      Looks W (s0.run W io'.out) (wscr W base R p (line ++ [c]) (line.length + 1)) := by
  have hct : c ≠ b%'\t' := by rintro rfl; revert hc; decide
  have hn : (s0.run W io.out).esc = .normal := h.esc
  refine ⟨((((io.beforeInput).put [c]).put []).afterInput).put [], by simp [keypressed, hct, suffix, repSub, insertAt, bind, Except.bind, rep], ?_⟩
  have e : s0.run W (((io.beforeInput).put [c]).put []).out = (s0.run W io.out).step W c := by
    rw [wide_put, wide_put, wide_beforeInput _ _ _ hn]; rfl
  have h1 := looks_type base R p line c hc hp _ h
  rw [wide_put, wide_afterInput _ _ _ (by rw [e]; exact h1.esc), e]
  exact h1

/-- **C94** (part) A line of any length that is typed without using the editing keys is shown, wrapped at the margin, with the cursor after it. -/
theorem C94_typing_partial (W : Nat) (base : Nat → Nat → Byte) (R p : Nat) (hp : p < W) (cs : Str) (hc : Printable cs) : ∀ (line : Str) (io : Io) (s0 : WideScreen),
    Looks W (s0.run W io.out) (wscr W base R p line line.length) →
    ∃ io' ys, edRun (cs.map fun c => EdOp.key (.ascii c)) ⟨line, line.length⟩ io = .ok (⟨line ++ cs, (line ++ cs).length⟩, io', ys) ∧
      Looks W (s0.run W io'.out) (wscr W base R p (line ++ cs) (line ++ cs).length) := by
  induction cs with
  | nil => intro line io s0 h; exact ⟨io, [], by simp [edRun], by simpa using h⟩
  | cons c cs ih =>
    intro line io s0 h
    obtain ⟨io1, h1, h2⟩ := type_end W base R p hp line c (hc c (by simp)) io s0 h
    obtain ⟨io', ys, h3, h4⟩ := ih (fun d hd => hc d (by simp [hd])) (line ++ [c]) io1 s0 (by simpa using h2)
    refine ⟨io', .nothing :: ys, ?_, by simpa using h4⟩
    have e : (line ++ [c]).length = line.length + 1 := by simp
    rw [e] at h3
    simp only [List.map_cons, edRun, h1, h3, bind, Except.bind]
    simp

/-- Backspace at the end of the line. -/
theorem backspace_end (line : Str) (c : Byte) (io : Io) : keypressed ⟨line ++ [c], line.length + 1⟩ io .backspace = .ok (⟨line, line.length⟩, (((io.put [bs]).put []).put [b%' ']).put [bs], .nothing) := by
  have e1 : (line ++ [c]).eraseIdx line.length = line := by
    rw [List.eraseIdx_append_of_length_le (by simp)]; simp
  simp [keypressed, eraseAt, e1, suffix, repSub, bind, Except.bind, rep]

/-- The bytes it writes, with the cursor in one of the first two columns. -/
theorem wide_erase (W : Nat) (hW : 2 ≤ W) (s : WideScreen) (hn : s.esc = .normal) (hc : s.col ≤ 1) :
    (s.run W [bs, b%' ', bs]).row = s.row ∧ (s.run W [bs, b%' ', bs]).col = 0 ∧ (s.run W [bs, b%' ', bs]).esc = .normal ∧ (s.run W [bs, b%' ', bs]).pending = false ∧
      ∀ r x, r ≠ s.row → (s.run W [bs, b%' ', bs]).cell r x = s.cell r x := by
  have hc0 : s.col - 1 = 0 := by omega
  have e1 : s.step W bs = { s with col := 0, pending := false } := by simp [WideScreen.step, hn, bs, hc0]
  have e2 : ({ s with col := 0, pending := false } : WideScreen).step W b%' ' = ({ s with col := 0, pending := false } : WideScreen).write W b%' ' := by
    exact wide_printable W { s with col := 0, pending := false } _ hn printable_space
  have e3 : s.run W [bs, b%' ', bs] = (({ s with col := 0, pending := false } : WideScreen).write W b%' ').step W bs := by
    show ((s.step W bs).step W b%' ').step W bs = _
    rw [e1, e2]
  rw [e3]
  have h1 : 0 + 1 < W := by omega
  simp only [WideScreen.write, WideScreen.step, hn, bs, if_true, h1]
  simp
  intro r x hr hr2
  exact absurd hr2 hr

/-- **C94** Refuted, for every width of the display and every prompt: after a line that is one character too long and two backspaces, the display still shows the last character of the first row, which is not in
    the line any more (there should be a blank), and the cursor is in the wrong row. -/
theorem C94_margin_refuted (W : Nat) (hW : 2 ≤ W) (base : Nat → Nat → Byte) (R p : Nat) (hp : p < W) (cs : Str) (hc : Printable cs) (x y : Byte) (hx : printable x = true) (hy : printable y = true)
    (hl : p + cs.length = W - 1) (io : Io) (s0 : WideScreen) (h : Looks W (s0.run W io.out) (wscr W base R p [] 0)) :
    ∃ io' ys, edRun (((cs ++ [x, y]).map fun c => EdOp.key (.ascii c)) ++ [.key .backspace, .key .backspace]) ⟨[], 0⟩ io = .ok (⟨cs, cs.length⟩, io', ys) ∧
      (s0.run W io'.out).cell R (W - 1) = x ∧ (s0.run W io'.out).row = R + 1 ∧
      (wscr W base R p cs cs.length).cell R (W - 1) = b%' ' ∧ (wscr W base R p cs cs.length).row = R := by
  have hpr : Printable (cs ++ [x, y]) := by
    rw [printable_append]; exact ⟨hc, by intro c hc'; simp at hc'; rcases hc' with rfl | rfl <;> assumption⟩
  obtain ⟨io1, ys, h1, h2⟩ := C94_typing_partial W base R p hp (cs ++ [x, y]) hpr [] io s0 (by simpa using h)
  have hlen : ([] ++ (cs ++ [x, y])).length = cs.length + 1 + 1 := by simp
  have hline : [] ++ (cs ++ [x, y]) = (cs ++ [x]) ++ [y] := by simp
  rw [hlen] at h1 h2
  rw [hline] at h1 h2
  have hmod : (p + (cs.length + 1 + 1)) % W = 1 := by
    rw [show p + (cs.length + 1 + 1) = W + 1 by omega, Nat.add_mod_left, Nat.mod_eq_of_lt (by omega)]
  have hdiv : (p + (cs.length + 1 + 1)) / W = 1 := by
    rw [show p + (cs.length + 1 + 1) = 1 + W by omega, Nat.add_div_right _ (by omega), Nat.div_eq_of_lt (by omega)]
  have hno : ¬ ((p + (cs.length + 1 + 1)) % W = 0 ∧ 0 < cs.length + 1 + 1) := by omega
  have hrow := h2.row; have hcol := h2.col; have hesc := h2.esc; have hcell := h2.cell R (W - 1) (by omega)
  simp only [wscr] at hrow hcol hesc hcell
  rw [if_neg hno, hdiv] at hrow
  rw [if_neg hno, hmod] at hcol
  rw [if_neg (by omega)] at hcell
  have hcell' : (s0.run W io1.out).cell R (W - 1) = x := by
    rw [hcell, Nat.sub_self, Nat.zero_mul, Nat.zero_add, show W - 1 - p = cs.length by omega]
    simp
  have hk1 := backspace_end (cs ++ [x]) y io1
  have el : (cs ++ [x]).length = cs.length + 1 := by simp
  rw [el] at hk1
  have hk2 := backspace_end cs x ((((io1.put [bs]).put []).put [b%' ']).put [bs])
  obtain ⟨a1, a2, a3, a4, a5⟩ := wide_erase W hW _ hesc (by rw [hcol]; omega)
  obtain ⟨b1, b2, b3, b4, b5⟩ := wide_erase W hW _ a3 (by rw [a2]; omega)
  have happ : ∀ (a b : List EdOp) (t t1 : Term) (io io1 : Io) (ys : List Symbol), edRun a t io = .ok (t1, io1, ys) → edRun (a ++ b) t io =
      (edRun b t1 io1).map (fun r => (r.1, r.2.1, ys ++ r.2.2)) := by
    intro a
    induction a with
    | nil => intro b t t1 io io1 ys h; simp [edRun] at h; obtain ⟨rfl, rfl, rfl⟩ := h; simp; cases edRun b t io <;> rfl
    | cons o a ih =>
      intro b t t1 io io1 ys h
      cases o with
      | key k =>
        simp only [edRun, bind, Except.bind, List.cons_append] at h ⊢
        split at h
        · cases h
        · rename_i v hv
          split at h
          · cases h
          · rename_i v2 hv2
            simp only [Except.ok.injEq, Prod.mk.injEq] at h
            obtain ⟨rfl, rfl, rfl⟩ := h
            rw [ih b _ _ _ _ _ hv2]
            cases edRun b v2.1 v2.2.1 <;> rfl
      | set s => exact ih b _ _ _ _ _ h
  have hrun := happ _ [.key .backspace, .key .backspace] _ _ _ _ _ h1
  simp only [edRun, hk1, hk2, bind, Except.bind, Except.map] at hrun
  refine ⟨_, _, hrun, ?_, ?_, ?_, ?_⟩
  · rw [wide_put, wide_put, wide_put, wide_put, wide_put, wide_put, wide_put, wide_put]
    show ((((s0.run W io1.out).run W [bs, b%' ', bs])).run W [bs, b%' ', bs]).cell R (W - 1) = x
    rw [b5 _ _ (by rw [a1, hrow]; omega), a5 _ _ (by rw [hrow]; omega), hcell']
  · rw [wide_put, wide_put, wide_put, wide_put, wide_put, wide_put, wide_put, wide_put]
    show ((((s0.run W io1.out).run W [bs, b%' ', bs])).run W [bs, b%' ', bs]).row = R + 1
    rw [b1, a1, hrow]
  · simp only [wscr]
    rw [if_neg (by omega), Nat.sub_self, Nat.zero_mul, Nat.zero_add, show W - 1 - p = cs.length by omega]
    simp
  · simp only [wscr]
    rw [if_neg (by rw [hl, Nat.mod_eq_of_lt (by omega)]; omega), hl, Nat.div_eq_of_lt (by omega)]; rfl

/-- An 80-column display with the prompt `cli> `, nothing typed: the hypotheses about the display. -/
example : Looks 80 (promptScreen.wide.run 80 []) (wscr 80 (fun _ c => (bs!"cli> ").getD c b%' ') 0 5 [] 0) ∧ Kept 80 promptScreen ⟨⟨true, true, false⟩, []⟩ :=
  ⟨looks_scr _ 0 5 [] 0 (by decide) (by decide), (show (5 : Nat) < 80 by decide)⟩

/-- On a display with 8 columns: `abc` fits after the prompt, `abcde` comes to the second row. -/
example : texts ((bs!"ac".map fun c => EdOp.key (.ascii c)) ++ [.key .left, .key (.ascii b%'b'), .key .home, .key .canc]) ⟨[], []⟩ = [[], bs!"a", bs!"ac", bs!"ac", bs!"abc", bs!"abc", bs!"bc"].map id := by decide

end Verif.Props
