import Verif.Proofs.Display

set_option linter.unusedSimpArgs false

/-!
# The line editor refines the two-sided buffer and keeps the display up to date
-/

namespace Verif.Spec
open Verif.Terminal

/-- The editor's state represents the buffer. -/
def Rep (t : Term) (z : Zip) : Prop := t.line = z.text ∧ t.pos = z.before.length

theorem rep_mk (z : Zip) : Rep ⟨z.text, z.before.length⟩ z := ⟨rfl, rfl⟩

theorem rep_eq {t : Term} {z : Zip} (h : Rep t z) : t = ⟨z.before.reverse ++ z.after, z.before.length⟩ := by
  obtain ⟨l, p⟩ := t
  obtain ⟨h1, h2⟩ := h
  simp only at h1 h2
  subst h1; subst h2; rfl

theorem eraseIdx_mid (b : Str) (c : Byte) (a : Str) : (b.reverse ++ c :: a).eraseIdx b.length = b.reverse ++ a := by
  rw [List.eraseIdx_append_of_length_le (by simp)]
  simp

theorem drop_rev (b a : Str) : (b.reverse ++ a).drop b.length = a := by
  rw [← List.length_reverse, List.drop_left']; rfl

theorem take_rev (b a : Str) : (b.reverse ++ a).take b.length = b.reverse := by
  rw [← List.length_reverse, List.take_left']; rfl

/-- The bytes a key makes the editor write, apart from colours. -/
theorem keypressed_rep (t : Term) (z : Zip) (io : Io) (k : Key) (h : Rep t z) :
    ∃ io', keypressed t io k = .ok (⟨(z.key k).text, (z.key k).before.length⟩, io', z.request k) := by
  rw [rep_eq h]
  obtain ⟨b, a⟩ := z
  cases k with
  | ascii c =>
    simp only [keypressed, Zip.key, Zip.request]
    by_cases hc : c = b%'\t'
    · simp [hc, Zip.text]
    · simp only [hc, if_false, suffix, repSub, insertAt, List.length_append, List.length_reverse, Nat.le_add_right, if_true,
        bind, Except.bind, drop_rev, take_rev]
      exact ⟨_, by simp [Zip.text]; rfl⟩
  | backspace =>
    cases b with
    | nil => exact ⟨_, by simp [keypressed, Zip.key, Zip.request, Zip.text]; rfl⟩
    | cons x b =>
      have e1 : (b.reverse ++ [x] ++ a) = b.reverse ++ x :: a := by simp
      simp only [keypressed, Zip.key, Zip.request, List.length_cons, Nat.add_sub_cancel, eraseAt, List.reverse_cons, e1,
        eraseIdx_mid, suffix, repSub, bind, Except.bind]
      have : b.length < (b.reverse ++ x :: a).length := by simp
      simp only [this, if_true]
      have : b.length ≤ (b.reverse ++ a).length := by simp
      simp only [this, if_true]
      have : b.length ≤ (b.reverse ++ a).length + 1 := by simp; omega
      simp only [this, if_true]
      exact ⟨_, by simp [Zip.text]; rfl⟩
  | canc =>
    cases a with
    | nil => exact ⟨_, by simp [keypressed, Zip.key, Zip.request, Zip.text]; rfl⟩
    | cons x a =>
      have h1 : b.length < (b.reverse ++ x :: a).length := by simp
      have h2 : b.length + 1 ≤ (b.reverse ++ x :: a).length := by omega
      have h3 : b.length ≤ (b.reverse ++ x :: a).length := by omega
      have h4 : ¬ (b.length = (b.reverse ++ x :: a).length) := by omega
      simp only [keypressed, Zip.key, Zip.request, eraseAt, eraseIdx_mid, suffix, repSub, bind, Except.bind, h1, h2, h3, h4, if_true, if_false]
      exact ⟨_, by simp [Zip.text]; rfl⟩
  | left =>
    cases b with
    | nil => exact ⟨_, by simp [keypressed, Zip.key, Zip.request, Zip.text, Zip.moveLeft]; rfl⟩
    | cons x b => exact ⟨_, by simp [keypressed, Zip.key, Zip.request, Zip.text, Zip.moveLeft]; rfl⟩
  | right =>
    cases a with
    | nil => exact ⟨_, by simp [keypressed, Zip.key, Zip.request, Zip.text, Zip.moveRight]; rfl⟩
    | cons x a => exact ⟨_, by simp [keypressed, Zip.key, Zip.request, Zip.text, Zip.moveRight]; rfl⟩
  | home => exact ⟨_, by simp [keypressed, Zip.key, Zip.request, Zip.text]; rfl⟩
  | «end» =>
    exact ⟨_, by simp [keypressed, Zip.key, Zip.request, Zip.text, suffix, bind, Except.bind]; exact ⟨Nat.add_comm _ _, rfl⟩⟩
  | ret => exact ⟨_, by simp [keypressed, Zip.key, Zip.request, Zip.text]; rfl⟩
  | up => exact ⟨_, by simp [keypressed, Zip.key, Zip.request, Zip.text]; rfl⟩
  | down => exact ⟨_, by simp [keypressed, Zip.key, Zip.request, Zip.text]; rfl⟩
  | eof => exact ⟨_, by simp [keypressed, Zip.key, Zip.request, Zip.text]; rfl⟩
  | ignored => exact ⟨_, by simp [keypressed, Zip.key, Zip.request, Zip.text]; rfl⟩
  | clear => exact ⟨_, by simp [keypressed, Zip.key, Zip.request, Zip.text]; rfl⟩

theorem overwrite_rev (b a s : Str) : overwrite (b.reverse ++ a) b.length s = b.reverse ++ s ++ a.drop s.length := by
  unfold overwrite
  rw [take_rev, ← List.drop_drop, drop_rev]

theorem printable_append {a b : Str} : Printable (a ++ b) ↔ Printable a ∧ Printable b := by
  simp only [Printable, List.mem_append]
  exact ⟨fun h => ⟨fun c hc => h c (.inl hc), fun c hc => h c (.inr hc)⟩, fun h c hc => hc.elim (h.1 c) (h.2 c)⟩

theorem printable_reverse {a : Str} : Printable a.reverse ↔ Printable a := by simp [Printable]

theorem printable_cons {c : Byte} {a : Str} : Printable (c :: a) ↔ printable c = true ∧ Printable a := by simp [Printable]

theorem printable_space : printable b%' ' = true := by decide

/-- `before` + `after` written over the current line from the cursor on, then back. -/
theorem run_over (base : Nat → Nat → Byte) (R p : Nat) (b a s : Str) (hs : Printable s) :
    (scr base R p (b.reverse ++ a) b.length).run s
      = scr base R p (b.reverse ++ s ++ a.drop s.length) (b.length + s.length) := by
  rw [run_text _ _ _ _ hs _ _ (by simp), overwrite_rev]

/-- A key that may be pressed while editing: not Enter, and only printable characters (and Tab). -/
def EditKey : Key → Prop
  | .ascii c => printable c = true ∨ c = b%'\t'
  | .ret => False
  | _ => True

theorem keypressed_display (s0 : Screen) (base : Nat → Nat → Byte) (R p : Nat) (t : Term) (z : Zip) (io : Io) (k : Key) (h : Rep t z)
    (hp : Printable z.text) (hk : EditKey k)
    (hd : s0.run io.out = scr base R p z.text z.before.length) :
    Printable (z.key k).text ∧
    ∃ t' io', keypressed t io k = .ok (t', io', z.request k) ∧ Rep t' (z.key k) ∧
      s0.run io'.out = scr base R p (z.key k).text (z.key k).before.length := by
  rw [rep_eq h]
  obtain ⟨b, a⟩ := z
  simp only [Zip.text] at hp hd
  obtain ⟨hpb, hpa⟩ := printable_append.1 hp
  have hn : (s0.run io.out).esc = .normal := by rw [hd]; rfl
  have trivialCase : ∀ k : Key, keypressed ⟨b.reverse ++ a, b.length⟩ io k = .ok (⟨b.reverse ++ a, b.length⟩, io, Zip.request ⟨b, a⟩ k) →
      Zip.key ⟨b, a⟩ k = ⟨b, a⟩ → Printable (Zip.key ⟨b, a⟩ k).text ∧
      ∃ t' io', keypressed ⟨b.reverse ++ a, b.length⟩ io k = .ok (t', io', Zip.request ⟨b, a⟩ k) ∧ Rep t' (Zip.key ⟨b, a⟩ k) ∧
        s0.run io'.out = scr base R p (Zip.key ⟨b, a⟩ k).text (Zip.key ⟨b, a⟩ k).before.length := by
    intro k h1 h2
    rw [h2]
    exact ⟨hp, _, _, h1, ⟨rfl, rfl⟩, hd⟩
  cases k with
  | ascii c =>
    by_cases hc : c = b%'\t'
    · exact trivialCase _ (by simp [keypressed, hc, Zip.request]) (by simp [Zip.key, hc])
    · have hpc : printable c = true := by rcases hk with hk | hk; exact hk; exact absurd hk hc
      simp only [keypressed, Zip.key, Zip.request, hc, if_false, suffix, repSub, insertAt, List.length_append, List.length_reverse,
        Nat.le_add_right, if_true, bind, Except.bind, drop_rev, take_rev, Nat.add_sub_cancel_left]
      refine ⟨by simp only [Zip.text, List.reverse_cons]; rw [printable_append, printable_append]; exact ⟨⟨hpb, by simp [Printable, hpc]⟩, hpa⟩, _, _, rfl,
        ⟨by simp [Zip.text], by simp⟩, ?_⟩
      rw [run_put]
      have e : s0.run (((io.beforeInput).put [c]).put a).out = scr base R p (b.reverse ++ c :: a) (b.length + (c :: a).length) := by
        rw [run_put, run_put, run_beforeInput _ _ hn, hd, ← run_append]
        have := run_over base R p b a (c :: a) (by rw [printable_cons]; exact ⟨hpc, hpa⟩)
        rw [List.drop_eq_nil_of_le (by simp), List.append_nil] at this
        simpa using this
      rw [run_afterInput _ _ (by rw [e]; rfl), e, run_bs _ _ _ _ _ _ (by simp; omega)]
      simp only [Zip.text, List.length_cons, List.reverse_cons, List.append_assoc, List.singleton_append, List.cons_append, List.nil_append]
      congr 1; omega
  | backspace =>
    cases b with
    | nil => exact trivialCase _ (by simp [keypressed, Zip.request]) (by simp [Zip.key])
    | cons x b =>
      have e1 : (b.reverse ++ [x] ++ a) = b.reverse ++ x :: a := by simp
      simp only [keypressed, Zip.key, Zip.request, List.length_cons, Nat.add_sub_cancel, eraseAt, List.reverse_cons, e1,
        eraseIdx_mid, suffix, repSub, bind, Except.bind]
      have : b.length < (b.reverse ++ x :: a).length := by simp
      simp only [this, if_true]
      have : b.length ≤ (b.reverse ++ a).length := by simp
      simp only [this, if_true]
      have : b.length ≤ (b.reverse ++ a).length + 1 := by simp; omega
      simp only [this, if_true]
      have hb : Printable b := by
        have := printable_reverse.1 hpb
        exact (printable_cons.1 this).2
      refine ⟨by simp only [Zip.text, List.tail_cons]; rw [printable_append]; exact ⟨printable_reverse.2 hb, hpa⟩, _, _,
        by rw [if_neg (by omega)], ⟨by simp [Zip.text], by simp⟩, ?_⟩
      rw [run_put, run_put, run_put, run_put, hd]
      have e2 : ((scr base R p ((x :: b).reverse ++ a) (b.length + 1)).run [bs]) = scr base R p (b.reverse ++ x :: a) b.length := by
        have := run_bs base R p ((x :: b).reverse ++ a) 1 (b.length + 1) (by omega)
        simpa [rep] using this
      simp only [List.length_cons, drop_rev]
      rw [e2, ← run_append _ a [b%' '], run_over _ _ _ _ _ _ (by rw [printable_append]; exact ⟨hpa, by simp [Printable, printable_space]⟩)]
      rw [run_bs _ _ _ _ _ _ (by simp; omega)]
      have e3 : b.reverse ++ (a ++ [b%' ']) ++ (x :: a).drop (a ++ [b%' ']).length = (b.reverse ++ a) ++ rep 1 b%' ' := by
        simp [rep]
      rw [e3, scr_blanks]
      simp only [Zip.text, List.tail_cons]
      congr 1; simp; omega
  | canc =>
    cases a with
    | nil => exact trivialCase _ (by simp [keypressed, Zip.request]) (by simp [Zip.key])
    | cons x a =>
      have h1 : b.length < (b.reverse ++ x :: a).length := by simp
      have h2 : b.length + 1 ≤ (b.reverse ++ x :: a).length := by omega
      have h3 : b.length ≤ (b.reverse ++ x :: a).length := by omega
      have h4 : ¬ (b.length = (b.reverse ++ x :: a).length) := by omega
      simp only [keypressed, Zip.key, Zip.request, eraseAt, eraseIdx_mid, suffix, repSub, bind, Except.bind, h1, h2, h3, h4, if_true, if_false]
      have ha : Printable a := (printable_cons.1 hpa).2
      refine ⟨by simp only [Zip.text, List.tail_cons]; rw [printable_append]; exact ⟨hpb, ha⟩, _, _,
        rfl, ⟨by simp [Zip.text], by simp⟩, ?_⟩
      rw [run_put, run_put, run_put, hd]
      have e4 : (b.reverse ++ x :: a).drop (b.length + 1) = a := by
        rw [← List.drop_drop, drop_rev]; rfl
      simp only [e4]
      rw [← run_append _ a [b%' '], run_over _ _ _ _ _ _ (by rw [printable_append]; exact ⟨ha, by simp [Printable, printable_space]⟩)]
      rw [run_bs _ _ _ _ _ _ (by simp)]
      have e3 : b.reverse ++ (a ++ [b%' ']) ++ (x :: a).drop (a ++ [b%' ']).length = (b.reverse ++ a) ++ rep 1 b%' ' := by
        simp [rep]
      rw [e3, scr_blanks]
      simp only [Zip.text, List.tail_cons]
      congr 1; simp
  | left =>
    cases b with
    | nil => exact trivialCase _ (by simp [keypressed, Zip.request]) (by simp [Zip.key, Zip.moveLeft])
    | cons x b =>
      refine ⟨by simpa [Zip.key, Zip.moveLeft, Zip.text] using hp, ⟨(b.reverse ++ x :: a), b.length⟩, io.put [bs], by simp [keypressed, Zip.request], ⟨by simp [Zip.key, Zip.moveLeft, Zip.text], by simp [Zip.key, Zip.moveLeft]⟩, ?_⟩
      rw [run_put, hd]
      have := run_bs base R p ((x :: b).reverse ++ a) 1 (b.length + 1) (by omega)
      simpa [rep, Zip.key, Zip.moveLeft, Zip.text] using this
  | right =>
    cases a with
    | nil => exact trivialCase _ (by simp [keypressed, Zip.request]) (by simp [Zip.key, Zip.moveRight])
    | cons x a =>
      have hx : printable x = true := (printable_cons.1 hpa).1
      refine ⟨by simpa [Zip.key, Zip.moveRight, Zip.text] using hp, ⟨(b.reverse ++ x :: a), b.length + 1⟩, (io.beforeInput.put [x]).afterInput, by simp [keypressed, Zip.request], ⟨by simp [Zip.key, Zip.moveRight, Zip.text], by simp [Zip.key, Zip.moveRight]⟩, ?_⟩
      have e : s0.run (io.beforeInput.put [x]).out = scr base R p (b.reverse ++ x :: a) (b.length + 1) := by
        rw [run_put, run_beforeInput _ _ hn, hd, run_over _ _ _ _ _ _ (by simp [Printable, hx])]
        simp
      rw [run_afterInput _ _ (by rw [e]; rfl), e]
      simp [Zip.key, Zip.moveRight, Zip.text]
  | home =>
    refine ⟨by simpa [Zip.key, Zip.text] using hp, ⟨b.reverse ++ a, 0⟩, io.put (rep b.length bs), by simp [keypressed, Zip.request], ⟨by simp [Zip.key, Zip.text], by simp [Zip.key]⟩, ?_⟩
    rw [run_put, hd, run_bs _ _ _ _ _ _ (by omega)]
    simp [Zip.key, Zip.text]
  | «end» =>
    refine ⟨by simpa [Zip.key, Zip.text] using hp, ⟨b.reverse ++ a, (b.reverse ++ a).length⟩, (io.beforeInput.put a).afterInput, by simp [keypressed, Zip.request, suffix, bind, Except.bind], ⟨by simp [Zip.key, Zip.text], by simp [Zip.key, Zip.text]; omega⟩, ?_⟩
    have e : s0.run (io.beforeInput.put a).out = scr base R p (b.reverse ++ a) (b.length + a.length) := by
      rw [run_put, run_beforeInput _ _ hn, hd, run_over _ _ _ _ _ _ hpa]
      simp
    rw [run_afterInput _ _ (by rw [e]; rfl), e]
    simp [Zip.key, Zip.text, Nat.add_comm]
  | ret => exact hk.elim
  | up => exact trivialCase _ (by simp [keypressed, Zip.request]) (by simp [Zip.key])
  | down => exact trivialCase _ (by simp [keypressed, Zip.request]) (by simp [Zip.key])
  | eof => exact trivialCase _ (by simp [keypressed, Zip.request]) (by simp [Zip.key])
  | ignored => exact trivialCase _ (by simp [keypressed, Zip.request]) (by simp [Zip.key])
  | clear => exact trivialCase _ (by simp [keypressed, Zip.request]) (by simp [Zip.key])

theorem setLine_fst (t : Term) (io : Io) (s : Str) : (setLine t io s).1 = ⟨s, s.length⟩ := rfl

theorem overwrite_zero (line s : Str) : overwrite line 0 s = s ++ line.drop s.length := by simp [overwrite]

theorem setLine_display (s0 : Screen) (base : Nat → Nat → Byte) (R p : Nat) (t : Term) (io : Io) (line new : Str) (hp : t.pos ≤ line.length)
    (hl : line = t.line ∨ line.length ≤ new.length)
    (hnew : Printable new) (hd : s0.run io.out = scr base R p line t.pos) :
    s0.run (setLine t io new).2.out = scr base R p new new.length := by
  have hn : (s0.run io.out).esc = .normal := by rw [hd]; rfl
  have e1 : s0.run ((io.beforeInput.put (rep t.pos bs)).put new).out
      = scr base R p (new ++ line.drop new.length) new.length := by
    rw [run_put, run_put, run_beforeInput _ _ hn, hd, run_bs _ _ _ _ _ _ (Nat.le_refl _), Nat.sub_self,
      run_text _ _ _ _ hnew _ _ (Nat.zero_le _), overwrite_zero, Nat.zero_add]
  have e2 : s0.run (((io.beforeInput.put (rep t.pos bs)).put new).afterInput).out
      = scr base R p (new ++ line.drop new.length) new.length := by
    rw [run_afterInput _ _ (by rw [e1]; rfl), e1]
  unfold setLine
  simp only
  split
  · rename_i h
    rw [run_put, run_put, e2]
    have hs : Printable (rep (t.line.length - new.length) b%' ') := by
      intro c hc; simp [rep] at hc; rw [hc.2]; decide
    have := run_over base R p new.reverse (line.drop new.length) _ hs
    simp only [List.reverse_reverse, List.length_reverse] at this
    rw [this, run_bs _ _ _ _ _ _ (by simp [rep])]
    have e3 : (line.drop new.length).drop (rep (t.line.length - new.length) b%' ').length = [] := by
      simp only [List.drop_drop, rep, List.length_replicate]
      apply List.drop_eq_nil_of_le
      rcases hl with rfl | hl <;> omega
    rw [e3, List.append_nil, scr_blanks]
    congr 1; simp [rep]
  · rename_i h
    rw [e2, List.drop_eq_nil_of_le (by rcases hl with rfl | hl <;> omega), List.append_nil]

end Verif.Spec
