import Verif.Model.Processor
import Verif.Proofs.Terminal
import Verif.Props.Completion
import Verif.Props.CommonPrefix

set_option linter.unusedSimpArgs false

/-!
# Proofs about the command processor: what is displayed
-/

namespace Verif.Processor
open Spec
open Terminal (Term Key Symbol)

variable {σ τ : Type}

/-! ### Text on the display -/

/-- What is already in the row can be regarded as what is to the left of the line. -/
theorem scr_rebase (base : Nat → Nat → Byte) (R p : Nat) (line : Str) :
    scr base R p line line.length = scr (fun r c => if r = R ∧ p ≤ c then line.getD (c - p) b%' ' else base r c) R (p + line.length) [] 0 := by
  unfold scr
  congr 1
  funext r c
  by_cases h1 : r < R
  · have : ¬ (r = R) := by omega
    simp [h1, this]
  · by_cases h2 : r = R
    · subst h2
      simp only [h1, if_false, if_true, true_and]
      by_cases h3 : c < p
      · have : c < p + line.length := by omega
        have h4 : ¬ p ≤ c := by omega
        simp [h3, this, h4]
      · have h4 : p ≤ c := by omega
        simp only [h3, if_false, h4, if_true]
        split
        · rfl
        · rename_i h5
          simp only [List.getD_nil]
          rw [List.getD_eq_getElem?_getD, List.getElem?_eq_none (by omega)]
          rfl
    · simp [h1, h2]

/-- A line feed starts the next row, which is blank. -/
theorem run_newline (base : Nat → Nat → Byte) (R p : Nat) (line : Str) (pos : Nat) :
    (scr base R p line pos).run bs!"\n" = scr (scr base R p line pos).cell (R + 1) 0 [] 0 := by
  rw [run_cons, run_nil]
  have hs : (scr base R p line pos).step b%'\n' = { scr base R p line pos with row := R + 1, col := 0 } := by
    simp [Screen.step, scr]
  rw [hs]
  show Screen.mk _ _ _ _ = Screen.mk _ _ _ _
  congr 1
  funext r c
  simp only [scr, List.getD_nil, Nat.not_lt_zero, if_false]
  by_cases h1 : r < R
  · have : r < R + 1 := by omega
    simp [h1, this]
  · by_cases h2 : r = R
    · subst h2; simp
    · have h3 : ¬ r < R + 1 := by omega
      simp [h1, h2, h3]

/-- Characters that stay in the row. -/
def inRow (c : Byte) : Bool := printable c || c == b%'\t'

/-- The cursor is in row `R`, with blanks to its right and below; the rows above are given by `base`. -/
def AtRow (s : Screen) (base : Nat → Nat → Byte) (R : Nat) : Prop := ∃ base' p, s = scr base' R p [] 0 ∧ ∀ r, r < R → base' r = base r

theorem atRow_char {s : Screen} {base : Nat → Nat → Byte} {R : Nat} (h : AtRow s base R) (c : Byte) (hc : inRow c = true) : AtRow (s.step c) base R := by
  obtain ⟨base', p, rfl, hb⟩ := h
  by_cases ht : c = b%'\t'
  · subst ht
    refine ⟨fun r k => if r = R ∧ p ≤ k then b%' ' else base' r k, (p / 8 + 1) * 8, ?_, ?_⟩
    · have hlt : p < (p / 8 + 1) * 8 := by omega
      simp only [Screen.step, scr, Nat.add_zero]
      simp only [show (b%'\t' = (8 : Byte)) = False by decide, if_false, if_true]
      congr 1
      funext r k
      by_cases h1 : r < R
      · have : ¬ r = R := by omega
        simp [h1, this]
      · by_cases h2 : r = R
        · subst h2
          simp only [h1, if_false, if_true, true_and, List.getD_nil]
          by_cases h3 : k < p
          · have h4 : k < (p / 8 + 1) * 8 := by omega
            have h5 : ¬ p ≤ k := by omega
            simp [h3, h4, h5]
          · have h5 : p ≤ k := by omega
            simp [h3, h5]
        · simp [h1, h2]
    · intro r hr
      funext k
      have : ¬ r = R := by omega
      simp [this, hb r hr]
  · have hp : printable c = true := by
      simp only [inRow, Bool.or_eq_true, beq_iff_eq] at hc
      exact hc.resolve_right ht
    have h1 : (scr base' R p [] 0).step c = scr base' R p [c] [c].length := by
      rw [step_printable _ _ rfl hp, putChar_scr _ _ _ _ _ _ (by simp)]
      simp [overwrite]
    rw [h1, scr_rebase]
    refine ⟨_, _, rfl, ?_⟩
    intro r hr
    funext k
    have : ¬ r = R := by omega
    simp [this, hb r hr]

theorem atRow_run {s : Screen} {base : Nat → Nat → Byte} {R : Nat} (h : AtRow s base R) (t : Str) (ht : ∀ c ∈ t, inRow c = true) : AtRow (s.run t) base R := by
  induction t generalizing s with
  | nil => exact h
  | cons c t ih => rw [run_cons]; exact ih (atRow_char h c (ht c (by simp))) (fun x hx => ht x (by simp [hx]))

theorem atRow_newline {s : Screen} {base : Nat → Nat → Byte} {R : Nat} (h : AtRow s base R) :
    ∃ base', s.run bs!"\n" = scr base' (R + 1) 0 [] 0 ∧ ∀ r, r < R → base' r = base r := by
  obtain ⟨base', p, rfl, hb⟩ := h
  refine ⟨_, run_newline _ _ _ _ _, ?_⟩
  intro r hr
  funext k
  simp [scr, hr, hb r hr]

/-- Lines of text. -/
def Lines (t : Str) : Prop := (∀ c ∈ t, inRow c = true ∨ c = b%'\n') ∧ (t = [] ∨ t.getLast? = some b%'\n')

theorem lines_tail {c : Byte} {t : Str} (h : Lines (c :: t)) (hne : t ≠ []) : Lines t := by
  refine ⟨fun x hx => h.1 x (by simp [hx]), .inr ?_⟩
  rcases h.2 with h2 | h2
  · cases h2
  · cases t with
    | nil => exact absurd rfl hne
    | cons y t => rw [List.getLast?_cons_cons] at h2; exact h2

/-- Lines of text leave the cursor at the beginning of a blank row, with nothing below. -/
theorem run_lines (t : Str) : ∀ (s : Screen) (base : Nat → Nat → Byte) (R : Nat), Lines t → t ≠ [] → AtRow s base R →
    ∃ base' R', s.run t = scr base' R' 0 [] 0 ∧ R < R' ∧ ∀ r, r < R → base' r = base r := by
  induction t with
  | nil => intro _ _ _ _ h; exact absurd rfl h
  | cons c t ih =>
    intro s base R hl _ ha
    by_cases hc : c = b%'\n'
    · subst hc
      obtain ⟨base1, h1, h2⟩ := atRow_newline ha
      rw [run_cons, run_nil] at h1
      by_cases hn : t = []
      · subst hn
        exact ⟨base1, R + 1, by rw [run_cons, run_nil, h1], by omega, h2⟩
      · obtain ⟨base2, R2, h3, h4, h5⟩ := ih (scr base1 (R + 1) 0 [] 0) base1 (R + 1) (lines_tail hl hn) hn ⟨base1, 0, rfl, fun _ _ => rfl⟩
        exact ⟨base2, R2, by rw [run_cons, h1, h3], by omega, fun r hr => (h5 r (by omega)).trans (h2 r hr)⟩
    · have hn : t ≠ [] := by
        rintro rfl
        rcases hl.2 with h | h
        · cases h
        · simp at h; exact hc h
      have hr : inRow c = true := (hl.1 c (by simp)).resolve_right hc
      obtain ⟨base2, R2, h3, h4, h5⟩ := ih (s.step c) base R (lines_tail hl hn) hn (atRow_char ha c hr)
      exact ⟨base2, R2, by rw [run_cons, h3], h4, h5⟩

/-! ### Prompt and redrawing -/

/-- The display shows `pre` and then the edited line, in one row, with blanks to the right and below, and the cursor at the editing position. -/
def Shows (s0 : Screen) (io : Io) (pre : Str) (t : Term) : Prop :=
  ∃ base R, (∀ c, c < pre.length → base R c = pre.getD c b%' ') ∧ s0.run io.out = scr base R pre.length t.line t.pos

/-- The prompt that is written: the current menu's, unless the session has exited. -/
def promptText (w : World σ τ) : Str :=
  if w.exit then []
  else match w.tree.locate w.current with
    | some ((m, _) :: _) => m.prompt ++ bs!"> "
    | _ => []

theorem prompt_io {w w' : World σ τ} (h : prompt w = .ok w') : ∃ io, w' = { w with io := io } ∧
    ∀ (s0 : Screen) base R, s0.run w.io.out = scr base R 0 [] 0 → Printable (promptText w) →
      ∃ base', (∀ c, c < (promptText w).length → base' R c = (promptText w).getD c b%' ') ∧ s0.run io.out = scr base' R (promptText w).length [] 0 := by
  unfold prompt at h
  split at h
  · rename_i hx
    cases h
    refine ⟨w.io, rfl, ?_⟩
    intro s0 base R hs _
    exact ⟨base, by simp [promptText, hx], by simpa [promptText, hx] using hs⟩
  · rename_i hx
    split at h
    · rename_i m k anc hl
      cases h
      refine ⟨_, rfl, ?_⟩
      intro s0 base R hs hp
      have ht : promptText w = m.prompt ++ bs!"> " := by simp [promptText, hx, hl]
      rw [ht] at hp ⊢
      obtain ⟨hp1, hp2⟩ := printable_append.1 hp
      have e1 : s0.run w.io.beforePrompt.out = scr base R 0 [] 0 := by rw [run_beforePrompt _ _ (by rw [hs]; rfl), hs]
      have e2 : s0.run (w.io.beforePrompt.put m.prompt).out = scr base R 0 m.prompt m.prompt.length := by
        rw [run_put, e1, run_text _ _ _ _ hp1 _ _ (by simp)]
        simp [overwrite]
      have e3 : s0.run ((w.io.beforePrompt.put m.prompt).afterPrompt).out = scr base R 0 m.prompt m.prompt.length := by
        rw [run_afterPrompt _ _ (by rw [e2]; rfl), e2]
      have e4 : s0.run (((w.io.beforePrompt.put m.prompt).afterPrompt).put bs!"> ").out = scr base R 0 (m.prompt ++ bs!"> ") (m.prompt ++ bs!"> ").length := by
        rw [run_put, e3, run_text _ _ _ _ hp2 _ _ (by simp)]
        have : m.prompt.drop (m.prompt.length + 2) = [] := List.drop_eq_nil_of_le (by omega)
        simp [overwrite, this]
      rw [e4, scr_rebase]
      refine ⟨_, ?_, by rw [Nat.zero_add]⟩
      intro c _
      simp
    · cases h

theorem promptText_io (w : World σ τ) (io : Io) : promptText { w with io := io } = promptText w := rfl
theorem promptText_hist (w : World σ τ) (h : History.History) : promptText { w with hist := h } = promptText w := rfl

/-- Redrawing at the beginning of a blank row. -/
theorem redraw_shows {p p' : Proc σ τ} {line : Str} (h : redraw p line = .ok p') : ∃ io, p' = ⟨{ p.w with io := io }, ⟨line, line.length⟩, p.active⟩ ∧
    ∀ (s0 : Screen) base R, s0.run p.w.io.out = scr base R 0 [] 0 → Printable (promptText p.w) → Printable line → Shows s0 io (promptText p.w) ⟨line, line.length⟩ := by
  unfold redraw at h
  simp only [bind, Except.bind] at h
  split at h
  · cases h
  · rename_i w1 h1
    obtain ⟨io, rfl, hio⟩ := prompt_io h1
    cases h
    refine ⟨_, rfl, ?_⟩
    intro s0 base R hs hp hpl
    obtain ⟨base', hb, hs'⟩ := hio s0 base R hs hp
    refine ⟨base', R, hb, ?_⟩
    exact setLine_display s0 base' R (promptText p.w).length (Terminal.resetCursor p.term) io [] line (by simp [Terminal.resetCursor]) (.inr (by simp)) hpl hs'

theorem clear_screen (s : Screen) (base : Nat → Nat → Byte) (R p : Nat) (line : Str) (pos : Nat) (h : s = scr base R p line pos) :
    s.run clearScreen = scr (fun _ _ => b%' ') 0 0 [] 0 := by
  subst h
  simp only [clearScreen, List.cons_append, List.nil_append, run_cons, run_nil, scr, Screen.step, Screen.eraseBelow]
  simp only [show (isDigit 72 = true ∨ (72 : Byte) = 59) = False by decide, show (isDigit 74 = true ∨ (74 : Byte) = 59) = False by decide, show ((27 : Byte) = 8) = False by decide,
    show ((27 : Byte) = 9) = False by decide, show ((27 : Byte) = 10) = False by decide, show ((27 : Byte) = 13) = False by decide, if_true, if_false, and_self,
    show ((74 : Byte) = 72) = False by decide, false_and]
  congr 1
  funext r c
  by_cases hr : r = 0
  · subst hr; simp
  · have : 0 < r := by omega
    simp [hr, this]

theorem setLine_shows {s0 : Screen} {io : Io} {pre : Str} {t : Term} (h : Shows s0 io pre t) (hp : t.pos ≤ t.line.length) (s : Str) (hs : Printable s) :
    Shows s0 (Terminal.setLine t io s).2 pre ⟨s, s.length⟩ := by
  obtain ⟨base, R, hb, hd⟩ := h
  exact ⟨base, R, hb, setLine_display s0 base R _ t io t.line s hp (.inl rfl) hs hd⟩

/-! ### Printable names -/

/-- All names in the menu are printable. -/
def NamesPrintable : Forest → Prop
  | .nil => True
  | .cmd c rest => Printable c.name ∧ NamesPrintable rest
  | .menu m kids rest => Printable m.name ∧ NamesPrintable kids ∧ NamesPrintable rest

def PathPrintable (path : Path) : Prop := ∀ m k, (m, k) ∈ path → Printable m.name ∧ NamesPrintable k

theorem names_cmd {kids : Forest} (h : NamesPrintable kids) {c : Cmd} (hc : .cmd c ∈ entries kids) : Printable c.name := by
  induction kids with
  | nil => cases hc
  | cmd c0 rest ih =>
    simp only [entries, List.mem_cons, Entry.cmd.injEq] at hc
    rcases hc with rfl | hc
    · exact h.1
    · exact ih h.2 hc
  | menu m k rest _ ih => simp only [entries, List.mem_cons, reduceCtorEq, false_or] at hc; exact ih h.2.2 hc

theorem names_menu {kids : Forest} (h : NamesPrintable kids) {m : MenuInfo} {k : Forest} (hc : .menu m k ∈ entries kids) : Printable m.name ∧ NamesPrintable k := by
  induction kids with
  | nil => cases hc
  | cmd c0 rest ih => simp only [entries, List.mem_cons, reduceCtorEq, false_or] at hc; exact ih h.2 hc
  | menu m0 k0 rest _ ih =>
    simp only [entries, List.mem_cons, Entry.menu.injEq] at hc
    rcases hc with ⟨rfl, rfl⟩ | hc
    · exact ⟨h.1, h.2.1⟩
    · exact ih h.2.2 hc

theorem offered_printable {dis : Id → Bool} {path : Path} {line c : Str} (hp : PathPrintable path) (h : Offered dis path line c) : Printable c := by
  obtain ⟨ws, q, r, e, ht, hb, rfl⟩ := h
  have key : PathPrintable q ∧ ∀ w ∈ ws, Printable w := by
    clear hb
    induction ht with
    | here => exact ⟨hp, by simp⟩
    | @down p kids anc m k gap rest ws q r hm _ _ ih =>
      obtain ⟨h1, h2⟩ := names_menu (hp p kids (by simp)).2 hm
      obtain ⟨h3, h4⟩ := ih (by
        intro m' k' hmem
        rcases List.mem_cons.1 hmem with he | hmem
        · cases he; exact ⟨h1, h2⟩
        · exact hp m' k' hmem)
      exact ⟨h3, by simpa [h1] using h4⟩
    | @up m kids p pk anc gap rest ws q r _ _ ih =>
      obtain ⟨h3, h4⟩ := ih (fun m' k' hmem => hp m' k' (List.mem_cons_of_mem _ hmem))
      exact ⟨h3, by simpa [(hp p pk (by simp)).1] using h4⟩
    | @dots m kids p pk anc gap rest ws q r _ _ _ ih =>
      obtain ⟨h3, h4⟩ := ih (fun m' k' hmem => hp m' k' (List.mem_cons_of_mem _ hmem))
      refine ⟨h3, ?_⟩
      intro w hw
      rcases List.mem_cons.1 hw with rfl | hw
      · intro x hx; revert hx x; decide
      · exact h4 w hw
  have he : Printable e := by
    cases hb with
    | cmd h1 => exact names_cmd (key.1 _ _ List.mem_cons_self).2 h1
    | menu h1 => exact (names_menu (key.1 _ _ List.mem_cons_self).2 h1).1
    | @parent m kids p pk anc r _ _ _ _ => exact (key.1 p pk (by simp)).1
  unfold spell
  rw [printable_append]
  refine ⟨?_, he⟩
  intro x hx
  obtain ⟨w, hw, hx⟩ := List.mem_flatMap.1 hx
  rcases List.mem_append.1 hx with hx | hx
  · exact key.2 w hw x hx
  · rw [List.mem_singleton.1 hx]; decide

/-- All names in the tree are printable. -/
def TreePrintable (t : Tree) : Prop := Printable t.root.name ∧ NamesPrintable t.kids

theorem locate_printable (id : Id) : ∀ (f : Forest) (anc path : Path), NamesPrintable f → PathPrintable anc → f.locate id anc = some path → PathPrintable path := by
  intro f
  induction f with
  | nil => intro _ _ _ _ h; cases h
  | cmd c rest ih => intro anc path hn ha h; exact ih anc path hn.2 ha h
  | menu m k rest ih1 ih2 =>
    intro anc path hn ha h
    have ha' : PathPrintable ((m, k) :: anc) := by
      intro m' k' hmem
      rcases List.mem_cons.1 hmem with he | hmem
      · cases he; exact ⟨hn.1, hn.2.1⟩
      · exact ha m' k' hmem
    simp only [Forest.locate] at h
    split at h
    · cases h; exact ha'
    · split at h
      · rename_i p' hp; cases h; exact ih1 _ _ hn.2.1 ha' hp
      · exact ih2 _ _ hn.2.2 ha h

theorem tree_printable {t : Tree} (h : TreePrintable t) {id : Id} {path : Path} (hl : t.locate id = some path) : PathPrintable path := by
  have hr : PathPrintable [(t.root, t.kids)] := by
    intro m k hm
    cases List.mem_singleton.1 hm
    exact h
  unfold Tree.locate at hl
  split at hl
  · cases hl; exact hr
  · exact locate_printable id _ _ _ h.2 hr hl

theorem completions_printable {p : Platform} {fuel : Nat} {w : World σ τ} {line : Str} {l : List Str} (ht : TreePrintable w.tree) (h : Completion.completions p fuel w line = .ok l)
    (c : Str) (hc : c ∈ l) : Printable c := by
  obtain ⟨gap, typed, path, _, _, hp, _, hm⟩ := Props.completions_spec h
  rcases (hm c).1 hc with ⟨h, _⟩ | h
  · simp only [Props.globalNames, List.mem_cons, List.not_mem_nil, or_false] at h
    rcases h with rfl | rfl | rfl | rfl <;> (intro x hx; revert hx x; decide)
  · exact offered_printable (tree_printable ht hp) h

/-! ### The history -/

def HistPrintable (h : History.History) : Prop := ∀ e ∈ h.buffer, Printable e

theorem getCurrent_mem {h : History.History} {s : Str} (hg : History.getCurrent h = .ok s) : s ∈ h.buffer := by
  unfold History.getCurrent at hg
  split at hg
  · cases hg
  · cases hg; exact List.mem_of_getElem? (by assumption)

theorem previous_printable {h h' : History.History} {line s : Str} (hb : HistPrintable h) (hl : Printable line) (hp : History.previous h line = .ok (s, h')) :
    Printable s ∧ HistPrintable h' := by
  have fin : ∀ h2 : History.History, HistPrintable h2 → ∀ s2, History.getCurrent h2 = .ok s2 → Printable s2 := fun h2 h3 s2 h4 => h3 s2 (getCurrent_mem h4)
  unfold History.previous at hp
  split at hp
  · have hi : HistPrintable (History.insert h line) := by
      intro e he
      have : e ∈ line :: h.buffer := by
        unfold History.insert at he
        simp only at he
        split at he
        · exact List.dropLast_subset _ he
        · exact he
      rcases List.mem_cons.1 this with rfl | he
      · exact hl
      · exact hb e he
    simp only [bind, Except.bind, pure, Except.pure] at hp
    split at hp
    · cases hp
    · rename_i s1 hs1
      cases hp
      have := getCurrent_mem hs1
      exact ⟨hi _ this, fun e he => hi e he⟩
  · split at hp
    · have hi : ∀ e ∈ h.buffer.set h.current line, Printable e := by
        intro e he
        rcases List.mem_or_eq_of_mem_set he with he | rfl
        · exact hb e he
        · exact hl
      simp only [bind, Except.bind, pure, Except.pure] at hp
      split at hp
      · cases hp
      · rename_i s1 hs1
        cases hp
        split at hs1
        · rename_i hc; rw [if_pos hc]; exact ⟨fin _ (fun e he => hi e he) _ hs1, fun e he => hi e he⟩
        · rename_i hc; rw [if_neg hc]; exact ⟨fin _ (fun e he => hi e he) _ hs1, fun e he => hi e he⟩
    · cases hp

theorem next_printable {h h' : History.History} {s : Str} (hb : HistPrintable h) (hp : History.next h = .ok (s, h')) : Printable s ∧ HistPrintable h' := by
  unfold History.next at hp
  split at hp
  · cases hp; exact ⟨by simp [Printable], hb⟩
  · simp only [bind, Except.bind, pure, Except.pure] at hp
    split at hp
    · cases hp
    · rename_i s1 hs1
      cases hp
      have := getCurrent_mem hs1
      exact ⟨hb _ this, hb⟩

end Verif.Processor
