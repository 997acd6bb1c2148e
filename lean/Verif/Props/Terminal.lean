import Verif.Proofs.Terminal

/-!
# Properties C40 and C41: the line editor
-/

namespace Verif.Props
open Verif.Terminal Verif.Spec

/-- What happens to the line editor: a key is pressed, or the line is replaced (by history or completion). -/
inductive EdOp where
  | key (k : Key)
  | set (s : Str)
  deriving DecidableEq, Repr

/-- The code, on a sequence of operations; collects what the editor asks the session to do. -/
def edRun : List EdOp → Term → Io → Except Fault (Term × Io × List Symbol)
  | [], t, io => .ok (t, io, [])
  | .key k :: ops, t, io => do
    let (t, io, y) ← keypressed t io k
    let (t, io, ys) ← edRun ops t io
    .ok (t, io, y :: ys)
  | .set s :: ops, t, io => edRun ops (setLine t io s).1 (setLine t io s).2

/-- The specification, on a sequence of operations. -/
def zipRun : List EdOp → Zip → Zip × List Symbol
  | [], z => (z, [])
  | .key k :: ops, z => ((zipRun ops (z.key k)).1, z.request k :: (zipRun ops (z.key k)).2)
  | .set s :: ops, _ => zipRun ops (Zip.ofLine s)

/-- **C40** For every sequence of key presses and line replacements, starting from any state that represents a buffer, the editor makes
    no invalid access, its line and cursor are those of the two-sided buffer, and its requests (in particular
    "execute this line") are those of the two-sided buffer. -/
theorem C40_editor_is_two_sided_buffer (ops : List EdOp) : ∀ (t : Term) (z : Zip) (io : Io), t.line = z.text → t.pos = z.before.length →
    ∃ t' io', edRun ops t io = .ok (t', io', (zipRun ops z).2) ∧
      t'.line = (zipRun ops z).1.text ∧ t'.pos = (zipRun ops z).1.before.length := by
  induction ops with
  | nil => intro t z io h1 h2; exact ⟨t, io, rfl, h1, h2⟩
  | cons op ops ih =>
    intro t z io h1 h2
    cases op with
    | key k =>
      obtain ⟨io1, hk⟩ := keypressed_rep t z io k ⟨h1, h2⟩
      obtain ⟨t', io', hr, h3, h4⟩ := ih ⟨(z.key k).text, (z.key k).before.length⟩ (z.key k) io1 rfl rfl
      exact ⟨t', io', by simp only [edRun, hk, hr, bind, Except.bind, zipRun], h3, h4⟩
    | set s =>
      obtain ⟨t', io', hr, h3, h4⟩ := ih ⟨s, s.length⟩ (Zip.ofLine s) (setLine t io s).2 (by simp [Zip.ofLine, Zip.text]) (by simp [Zip.ofLine])
      exact ⟨t', io', hr, h3, h4⟩

/-- **C40** The initial state of the editor represents the empty buffer. -/
theorem C40_initial : (Term.mk [] 0).line = (Zip.mk [] []).text ∧ (Term.mk [] 0).pos = (Zip.mk [] []).before.length := ⟨rfl, rfl⟩

/-- Typing `hlo`, Left twice, `el`, End, Backspace, `p`, Enter. -/
example : zipRun ((bs!"hlo".map fun c => EdOp.key (.ascii c)) ++ [.key .left, .key .left] ++ (bs!"el".map fun c => EdOp.key (.ascii c)) ++
    [.key .end, .key .backspace, .key (.ascii b%'p'), .key .ret]) ⟨[], []⟩
    = (⟨[], []⟩, [.nothing, .nothing, .nothing, .nothing, .nothing, .nothing, .nothing, .nothing, .nothing, .nothing, .command bs!"hellp"]) := by rfl

/-- Operations during the editing of one line, with printable text only. -/
def EdOp.editing : EdOp → Prop
  | .key k => EditKey k
  | .set s => Printable s

/-- **C41** Suppose the display shows the edited line in row `R` from column `p` on, with blanks to the right of it and below, and
    the cursor at the editing position (`scr base R p line pos`: `base` is what is shown above and to the left, e.g. the prompt).
    Then after any sequence of editing keys and line replacements it shows the new line in the same way; nothing else on the
    screen has changed. This holds with and without colours (for every `io.style`). -/
theorem C41_display_shows_line (ops : List EdOp) : ∀ (t : Term) (z : Zip) (io : Io) (s0 : Screen) (base : Nat → Nat → Byte) (R p : Nat),
    (∀ op ∈ ops, op.editing) → Printable z.text →
    t.line = z.text → t.pos = z.before.length →
    s0.run io.out = scr base R p t.line t.pos →
    ∃ t' io' ys, edRun ops t io = .ok (t', io', ys) ∧ s0.run io'.out = scr base R p t'.line t'.pos := by
  induction ops with
  | nil => intro t z io s0 base R p _ _ h1 h2 hd; exact ⟨t, io, [], rfl, hd⟩
  | cons op ops ih =>
    intro t z io s0 base R p ho hp h1 h2 hd
    have ho' : ∀ op ∈ ops, op.editing := fun o h => ho o (by simp [h])
    have ho1 := ho op (by simp)
    cases op with
    | key k =>
      obtain ⟨hp1, t1, io1, hk, hr1, hd1⟩ := keypressed_display s0 base R p t z io k ⟨h1, h2⟩ hp ho1 (by rw [hd, h1, h2])
      obtain ⟨t', io', ys, hr, hd'⟩ := ih t1 (z.key k) io1 s0 base R p ho' hp1 hr1.1 hr1.2 (by rw [hd1, hr1.1, hr1.2])
      exact ⟨t', io', z.request k :: ys, by simp only [edRun, hk, hr, bind, Except.bind], hd'⟩
    | set s =>
      have hd1 := setLine_display s0 base R p t io t.line s (by rw [h1, h2]; simp [Zip.text]) (.inl rfl) ho1 hd
      obtain ⟨t', io', ys, hr, hd'⟩ := ih ⟨s, s.length⟩ (Zip.ofLine s) (setLine t io s).2 s0 base R p ho' (by simpa [Zip.ofLine, Zip.text] using (show Printable s from ho1))
        (by simp [Zip.ofLine, Zip.text]) (by simp [Zip.ofLine]) hd1
      exact ⟨t', io', ys, hr, hd'⟩

/-- The displayed text of a row, for the example. -/
def rowText (s : Screen) (r n : Nat) : Str := (List.range n).map (s.cell r)

/-- A screen with the prompt `cli> ` in the first row. -/
def promptScreen : Screen := scr (fun _ c => (bs!"cli> ").getD c b%' ') 0 5 [] 0

example : ∃ t' io' ys, edRun ((bs!"hlo".map fun c => EdOp.key (.ascii c)) ++ [.key .left, .key .left, .key (.ascii b%'e'), .key (.ascii b%'l'), .key .home, .key .canc])
      ⟨[], 0⟩ ⟨⟨true, true, false⟩, []⟩ = .ok (t', io', ys) ∧ rowText (promptScreen.run io'.out) 0 12 = bs!"cli> ello   "
      ∧ (promptScreen.run io'.out).col = 5 := by
  refine ⟨_, _, _, rfl, ?_, ?_⟩ <;> decide +kernel

end Verif.Props
