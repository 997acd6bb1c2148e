import Verif.Proofs.Processor
import Verif.Props.Terminal
import Verif.Props.Sample

set_option linter.unusedSimpArgs false

/-!
# Properties C39, C41, C42 and C64: the command processor
-/

namespace Verif.Props
open Spec Processor
open Verif.Terminal (Term Key Symbol)
open Verif.Completion (strip_append strip_prefix)

variable {σ τ : Type} (A : App σ τ)

/-! ### C39 -/

/-- The longest common prefix. -/
def IsLongestCommonPrefix (pre : Str) (cs : List Str) : Prop := (∀ c ∈ cs, pre <+: c) ∧ ∀ q, (∀ c ∈ cs, q <+: c) → q <+: pre

theorem lcp_unique {a b : Str} {cs : List Str} (ha : IsLongestCommonPrefix a cs) (hb : IsLongestCommonPrefix b cs) : a = b := by
  have h1 := ha.2 b hb.1
  have h2 := hb.2 a ha.1
  exact h2.eq_of_length (Nat.le_antisymm h2.length_le h1.length_le)

/-- What Tab does to the line. -/
inductive TabResult (cs : List Str) (line line' : Str) : Prop
  | none : cs = [] → line' = line → TabResult cs line line'
  | unique {c : Str} : cs = [c] → line' = c ++ bs!" " → TabResult cs line line'
  | longer {pre : Str} : 2 ≤ cs.length → IsLongestCommonPrefix pre cs → line.length < pre.length → line' = pre → TabResult cs line line'
  | list {pre : Str} : 2 ≤ cs.length → IsLongestCommonPrefix pre cs → pre.length ≤ line.length → line' = line → TabResult cs line line'

theorem tab_key {fuel : Nat} {p p' : Proc σ τ} {x : Option Exn} (h : keypressed A fuel p (.ascii b%'\t') = .ok (p', x)) : x = none ∧ tab A fuel p = .ok p' := by
  unfold keypressed at h
  simp only [Terminal.keypressed, if_true, bind, Except.bind, newCommand] at h
  split at h
  · cases h
  · rename_i q hq; cases h; exact ⟨rfl, hq⟩

theorem tab_cases {fuel : Nat} {p p' : Proc σ τ} (h : tab A fuel p = .ok p') :
    ∃ cs, Completion.completions A.plat fuel p.w p.term.line = .ok cs ∧
      ((cs = [] ∧ p' = p) ∨ (∃ c, cs = [c] ∧ p' = setLine p (c ++ bs!" ")) ∨
       (2 ≤ cs.length ∧ ∃ pre, IsLongestCommonPrefix pre cs ∧
         ((p.term.line.length < pre.length ∧ p' = setLine p pre) ∨
          (pre.length ≤ p.term.line.length ∧ redraw { p with w := (p.w.put bs!"\n").put (items cs ++ bs!"\n") } p.term.line = .ok p')))) := by
  unfold tab at h
  simp only [bind, Except.bind] at h
  split at h
  · cases h
  · rename_i cs hcs
    refine ⟨cs, hcs, ?_⟩
    split at h
    · cases h; exact .inl ⟨rfl, rfl⟩
    · rename_i c; cases h; exact .inr (.inl ⟨c, rfl, rfl⟩)
    · rename_i hn1 hn2
      have hlen : 2 ≤ cs.length := by
        match cs, hn1, hn2 with
        | [], h1, _ => exact absurd rfl h1
        | [c], _, h2 => exact absurd rfl (h2 c)
        | _ :: _ :: _, _, _ => simp
      obtain ⟨pre, hpre, hp1, hp2⟩ := C38_longest_common_prefix cs (fun he => hn1 he)
      rw [hpre] at h
      simp only at h
      refine .inr (.inr ⟨hlen, pre, ⟨hp1, hp2⟩, ?_⟩)
      split at h
      · rename_i hl; cases h; exact .inl ⟨hl, rfl⟩
      · rename_i hl; exact .inr ⟨by omega, h⟩

/-- **C39** What Tab does: with no completion nothing; with one, the line becomes that completion and a blank; with several, the line becomes their
    longest common prefix if that is longer than the line, and otherwise stays as it is, while the completions are listed. Nothing but the line and the output changes. -/
theorem C39_tab (fuel : Nat) (p p' : Proc σ τ) (x : Option Exn) (h : keypressed A fuel p (.ascii b%'\t') = .ok (p', x)) :
    ∃ cs, Completion.completions A.plat fuel p.w p.term.line = .ok cs ∧ TabResult cs p.term.line p'.term.line ∧
      (p' = p ∨ p'.term.pos = p'.term.line.length) ∧ x = none ∧ p'.active = p.active ∧ ∃ io, p'.w = { p.w with io := io } := by
  obtain ⟨rfl, ht⟩ := tab_key A h
  obtain ⟨cs, hcs, hc⟩ := tab_cases A ht
  refine ⟨cs, hcs, ?_⟩
  rcases hc with ⟨h1, rfl⟩ | ⟨c, h1, rfl⟩ | ⟨h1, pre, h2, ⟨h3, rfl⟩ | ⟨h3, h4⟩⟩
  · exact ⟨.none h1 rfl, .inl rfl, rfl, rfl, _, rfl⟩
  · exact ⟨.unique h1 rfl, .inr rfl, rfl, rfl, _, rfl⟩
  · exact ⟨.longer h1 h2 h3 rfl, .inr rfl, rfl, rfl, _, rfl⟩
  · obtain ⟨io, rfl, _⟩ := redraw_shows h4
    exact ⟨.list h1 h2 h3 rfl, .inr rfl, rfl, rfl, io, rfl⟩

/-- **C39** When Tab lists the completions, each is written, in order, preceded by a tab, in a line of its own followed by the prompt and the line. -/
theorem C39_lists (fuel : Nat) (p p' : Proc σ τ) (x : Option Exn) (h : keypressed A fuel p (.ascii b%'\t') = .ok (p', x)) (cs : List Str)
    (hcs : Completion.completions A.plat fuel p.w p.term.line = .ok cs) (hl : 2 ≤ cs.length) (hs : p'.term.line = p.term.line) :
    (bs!"\n" ++ cs.flatMap (fun c => b%'\t' :: c) ++ bs!"\n") <:+: p'.w.io.out ∧ p.w.io.out <+: p'.w.io.out := by
  obtain ⟨rfl, ht⟩ := tab_key A h
  obtain ⟨cs', hcs', hc⟩ := tab_cases A ht
  rw [hcs] at hcs'; cases hcs'
  rcases hc with ⟨rfl, rfl⟩ | ⟨c, rfl, rfl⟩ | ⟨h1, pre, h2, ⟨h3, rfl⟩ | ⟨h3, h4⟩⟩
  · simp at hl
  · simp at hl
  · exfalso
    have : pre = p.term.line := hs
    rw [this] at h3
    exact absurd h3 (Nat.lt_irrefl _)
  · have key : ∃ rest, p'.w.io.out = p.w.io.out ++ (bs!"\n" ++ cs.flatMap (fun c => b%'\t' :: c) ++ bs!"\n") ++ rest := by
      unfold redraw at h4
      simp only [bind, Except.bind] at h4
      split at h4
      · cases h4
      · rename_i w1 hw1
        cases h4
        have hg : ∀ (io : Io) (t : Term) (s : Str), io.out <+: (Terminal.setLine t io s).2.out := by
          intro io t s
          unfold Terminal.setLine
          have e1 : io.out <+: (((io.beforeInput.put (Terminal.rep t.pos Terminal.bs)).put s).afterInput).out := by
            simp only [Io.afterInput, Io.put, Io.beforeInput, Io.sgr, Io.force]
            repeat' split
            all_goals simp [List.append_assoc]
          simp only
          split
          · refine e1.trans ?_
            simp only [Io.put, List.append_assoc]
            exact List.prefix_append ..
          · exact e1
        have hw : ((p.w.put bs!"\n").put (items cs ++ bs!"\n")).io.out <+: w1.io.out := by
          unfold prompt at hw1
          split at hw1
          · cases hw1; exact List.prefix_rfl
          · split at hw1
            · cases hw1
              simp only [Io.afterPrompt, Io.put, Io.beforePrompt, Io.sgr, Io.force]
              repeat' split
              all_goals simp [List.append_assoc]
            · cases hw1
        obtain ⟨rest, hr⟩ := hw.trans (hg w1.io (Terminal.resetCursor p.term) p.term.line)
        refine ⟨rest, ?_⟩
        show (Terminal.setLine (Terminal.resetCursor p.term) w1.io p.term.line).2.out = _
        rw [← hr]
        simp [World.put, Io.put, items]
    obtain ⟨rest, hr⟩ := key
    exact ⟨⟨p.w.io.out, rest, hr.symm⟩, ⟨(bs!"\n" ++ cs.flatMap (fun c => b%'\t' :: c) ++ bs!"\n") ++ rest, by rw [hr]; simp only [List.append_assoc]⟩⟩

/-- **C39** (part) Apart from white space the line is extended if there is at most one completion, or if the line is a beginning of every completion
    (no white space in front of it, menu names followed by one blank). What is missing is refuted by the next theorem. -/
theorem C39_extends_partial (fuel : Nat) (p p' : Proc σ τ) (x : Option Exn) (h : keypressed A fuel p (.ascii b%'\t') = .ok (p', x)) (cs : List Str)
    (hcs : Completion.completions A.plat fuel p.w p.term.line = .ok cs) (hl : cs.length ≤ 1 ∨ ∀ c ∈ cs, p.term.line <+: c) :
    strip p.term.line <+: strip p'.term.line := by
  obtain ⟨cs', hcs', ht, _⟩ := C39_tab A fuel p p' x h
  rw [hcs] at hcs'; cases hcs'
  cases ht with
  | none _ he => rw [he]; exact List.prefix_rfl
  | unique hc he =>
    rw [he, strip_append]
    exact (C34_extends A.plat fuel p.w _ cs hcs _ (by simp [hc])).trans (List.prefix_append ..)
  | longer h1 h2 h3 he =>
    rw [he]
    rcases hl with hl | hl
    · omega
    · exact strip_prefix (h2.2 _ hl)
  | list _ _ _ he => rw [he]; exact List.prefix_rfl

/-- **C39** In all cases nothing is put into what has been typed but white space: one of the two lines extends the other one modulo white space. And if something that has been typed is lost, then only its end, and only because two
    completions continue the new line differently, one of them with white space. -/
theorem C39_lost (fuel : Nat) (p p' : Proc σ τ) (x : Option Exn) (h : keypressed A fuel p (.ascii b%'\t') = .ok (p', x)) (cs : List Str)
    (hcs : Completion.completions A.plat fuel p.w p.term.line = .ok cs) :
    strip p.term.line <+: strip p'.term.line ∨
    (strip p'.term.line <+: strip p.term.line ∧ ∃ c ∈ cs, ∃ d ∈ cs, ∃ a b r s, c = p'.term.line ++ a :: r ∧ d = p'.term.line ++ b :: s ∧ a ≠ b ∧ blank a = true) := by
  obtain ⟨cs', hcs', ht, _⟩ := C39_tab A fuel p p' x h
  rw [hcs] at hcs'; cases hcs'
  cases ht with
  | none _ he => rw [he]; exact .inl List.prefix_rfl
  | unique hc he =>
    rw [he, strip_append]
    exact .inl ((C34_extends A.plat fuel p.w _ cs hcs _ (by simp [hc])).trans (List.prefix_append ..))
  | list _ _ _ he => rw [he]; exact .inl List.prefix_rfl
  | longer h1 h2 h3 he =>
    by_cases hx : strip p.term.line <+: strip p'.term.line
    · exact .inl hx
    refine .inr ?_
    rw [← he] at h2
    have ext : ∀ c ∈ cs, strip p.term.line <+: strip c := fun c hc => C34_extends A.plat fuel p.w _ cs hcs c hc
    obtain ⟨c0, hc0⟩ : ∃ c, c ∈ cs := by
      cases cs with
      | nil => simp at h1
      | cons c _ => exact ⟨c, by simp⟩
    have hpre : strip p'.term.line <+: strip p.term.line := by
      rcases List.prefix_or_prefix_of_prefix (strip_prefix (h2.1 c0 hc0)) (ext c0 hc0) with h | h
      · exact h
      · exact absurd h hx
    refine ⟨hpre, ?_⟩
    obtain ⟨t, ht⟩ := hpre
    obtain ⟨z, t, rfl⟩ : ∃ z t', t = z :: t' := by
      cases t with
      | nil => rw [List.append_nil] at ht; exact absurd (ht ▸ List.prefix_rfl) hx
      | cons z t => exact ⟨z, t, rfl⟩
    have next : ∀ c ∈ cs, ∃ a r, c = p'.term.line ++ a :: r ∧ (blank a = true ∨ a = z) := by
      intro c hc
      obtain ⟨u, hu⟩ := h2.1 c hc
      have h4 := ext c hc
      rw [← ht, ← hu, strip_append, List.prefix_append_right_inj] at h4
      cases u with
      | nil => exact absurd h4.length_le (by simp [strip])
      | cons a r =>
        refine ⟨a, r, hu.symm, ?_⟩
        by_cases hb : blank a = true
        · exact .inl hb
        · have : strip (a :: r) = a :: strip r := by simp [strip, hb]
          rw [this, List.cons_prefix_cons] at h4
          exact .inr h4.1.symm
    obtain ⟨a, r, e1, e2⟩ := next c0 hc0
    by_cases hall : ∀ c ∈ cs, p'.term.line ++ [a] <+: c
    · have := (h2.2 _ hall).length_le
      simp at this
      omega
    obtain ⟨d, hd, hn⟩ : ∃ d ∈ cs, ¬ p'.term.line ++ [a] <+: d := by
      refine Classical.byContradiction fun hno => hall fun c hc => Classical.byContradiction fun h => hno ⟨c, hc, h⟩
    obtain ⟨b, s, g1, g2⟩ := next d hd
    have hab : a ≠ b := by
      rintro rfl
      exact hn ⟨s, by rw [g1]; simp⟩
    rcases e2 with e2 | e2
    · exact ⟨c0, hc0, d, hd, a, b, r, s, e1, g1, hab, e2⟩
    · rcases g2 with g2 | g2
      · exact ⟨d, hd, c0, hc0, b, a, s, r, g1, e1, Ne.symm hab, g2⟩
      · exact absurd (e2.trans g2.symm) hab

/-- **C39** (part) So the line is extended, modulo white space, if all completions begin with what has been typed, apart from white space in front of it. -/
theorem C39_typed_partial (fuel : Nat) (p p' : Proc σ τ) (x : Option Exn) (h : keypressed A fuel p (.ascii b%'\t') = .ok (p', x)) (cs : List Str)
    (hcs : Completion.completions A.plat fuel p.w p.term.line = .ok cs) (gap typed : Str) (hg : Gap gap typed) (hl : p.term.line = gap ++ typed) (hc : ∀ c ∈ cs, typed <+: c) :
    strip p.term.line <+: strip p'.term.line := by
  obtain ⟨cs', hcs', ht, _⟩ := C39_tab A fuel p p' x h
  rw [hcs] at hcs'; cases hcs'
  cases ht with
  | none _ he => rw [he]; exact List.prefix_rfl
  | unique hc he =>
    rw [he, strip_append]
    exact (C34_extends A.plat fuel p.w _ cs hcs _ (by simp [hc])).trans (List.prefix_append ..)
  | longer h1 h2 h3 he =>
    rw [he, hl, strip_append, Completion.strip_gap hg, List.nil_append]
    exact strip_prefix (h2.2 _ hc)
  | list _ _ _ he => rw [he]; exact List.prefix_rfl

/-- **C39** In every case the line is shown in full: Tab never changes a line that has more characters than the longest common prefix. -/
theorem C39_never_shorter (fuel : Nat) (p p' : Proc σ τ) (x : Option Exn) (h : keypressed A fuel p (.ascii b%'\t') = .ok (p', x)) (cs : List Str)
    (hcs : Completion.completions A.plat fuel p.w p.term.line = .ok cs) (hl : cs.length ≠ 1) : p.term.line.length ≤ p'.term.line.length := by
  obtain ⟨cs', hcs', ht, _⟩ := C39_tab A fuel p p' x h
  rw [hcs] at hcs'; cases hcs'
  cases ht with
  | none _ he => rw [he]; exact Nat.le_refl _
  | unique hc _ => simp [hc] at hl
  | longer _ _ h3 he => rw [he]; omega
  | list _ _ _ he => rw [he]; exact Nat.le_refl _

namespace Sample

def proc (w : World (List Nat) (List Str)) (line : Str) : Proc (List Nat) (List Str) := ⟨w, ⟨line, line.length⟩, true⟩

/-- Menu `a` with a menu `b` that contains a menu `c` with a command `d1`, and a command `cd2`. -/
def glued : Forest :=
  .menu (info 20 bs!"a") (.menu (info 21 bs!"b") (.menu (info 22 bs!"c") (.cmd (cmd 23 bs!"d1" (.variadic []) 23) .nil)
    (.cmd (cmd 24 bs!"cd2" (.variadic []) 24) .nil)) .nil) .nil

def gluedWorld : World (List Nat) (List Str) := { world with tree := ⟨root, glued⟩ }

end Sample

open Sample in
example : (keypressed app 5 (proc world bs!"a") (.ascii b%'\t')).map (fun r => (r.1.term.line, r.2)) = .ok (bs!"a", none) ∧
    (keypressed app 5 (proc world bs!"sub d") (.ascii b%'\t')).map (fun r => (r.1.term.line, r.2)) = .ok (bs!"sub d", none) ∧
    (keypressed app 5 (proc world bs!"sub dr") (.ascii b%'\t')).map (fun r => (r.1.term.line, r.2)) = .ok (bs!"sub drop ", none) ∧
    (keypressed app 5 (proc world bs!"c") (.ascii b%'\t')).map (fun r => (r.1.term.line, r.2)) = .ok (bs!"cast ", none) ∧
    (keypressed app 5 (proc world bs!"hi") (.ascii b%'\t')).map (fun r => (r.1.term.line, r.2)) = .ok (bs!"history ", none) := ⟨by rfl, by rfl, by rfl, by rfl, by rfl⟩

open Sample in
/-- The hypotheses of `C39_typed_partial` are satisfiable with several completions and white space in front; and those of `C39_lost` with text that is lost. -/
example : (∃ p' cs, keypressed app 5 (proc world bs!" sub d") (.ascii b%'\t') = .ok (p', none) ∧ Completion.completions app.plat 5 world bs!" sub d" = .ok cs ∧ 2 ≤ cs.length ∧ Gap bs!" " bs!"sub d" ∧ ∀ c ∈ cs, bs!"sub d" <+: c) ∧
    Completion.completions app.plat 5 gluedWorld bs!"abcd" = .ok [bs!"a b c d1", bs!"a b cd2"] := by
  refine ⟨⟨_, _, rfl, rfl, by decide, ⟨by decide, by decide⟩, by decide⟩, rfl⟩

/-- **C39 refuted** Typed text may be lost: with completions `a b c d1` and `a b cd2` of `abcd` their common prefix `a b c` is longer than `abcd`, and the line
    becomes `a b c`. -/
theorem C39_text_lost_refuted : ∃ (A : App (List Nat) (List Str)) (fuel : Nat) (p p' : Proc (List Nat) (List Str)),
    keypressed A fuel p (.ascii b%'\t') = .ok (p', none) ∧ ¬ (strip p.term.line <+: strip p'.term.line) := by
  have h : (keypressed Sample.app 9 (Sample.proc Sample.gluedWorld bs!"abcd") (.ascii b%'\t')).map (fun r => (r.1.term.line, r.2)) = .ok (bs!"a b c", none) := by rfl
  cases hk : keypressed Sample.app 9 (Sample.proc Sample.gluedWorld bs!"abcd") (.ascii b%'\t') with
  | error f => rw [hk] at h; cases h
  | ok r =>
    obtain ⟨p', x⟩ := r
    rw [hk] at h
    simp only [Except.map, Except.ok.injEq, Prod.mk.injEq] at h
    obtain ⟨h1, rfl⟩ := h
    refine ⟨Sample.app, 9, _, p', hk, ?_⟩
    rw [h1]
    decide

/-! ### C41 in the session -/

/-- The state of the session while a line is edited. -/
structure Editing (s0 : Screen) (p : Proc σ τ) : Prop where
  cursor : p.term.pos ≤ p.term.line.length
  line : Printable p.term.line
  hist : HistPrintable p.w.hist
  shown : Shows s0 p.w.io (promptText p.w) p.term

/-- What keys other than Enter and Ctrl-D do not touch. -/
def SameButEditing (p p' : Proc σ τ) : Prop := ∃ io hist, p'.w = { p.w with io := io, hist := hist } ∧ p'.active = p.active

theorem sameButEditing_trans {a b c : Proc σ τ} (h1 : SameButEditing a b) (h2 : SameButEditing b c) : SameButEditing a c := by
  obtain ⟨io1, hist1, h1, a1⟩ := h1
  obtain ⟨io2, hist2, h2, a2⟩ := h2
  exact ⟨io2, hist2, by rw [h2, h1], a2.trans a1⟩

theorem same_prompt {p p' : Proc σ τ} (h : SameButEditing p p') : promptText p'.w = promptText p.w := by
  obtain ⟨io, hist, h, _⟩ := h
  rw [h]; rfl

theorem listing_row (s0 : Screen) (io : Io) (base : Nat → Nat → Byte) (R n : Nat) (line : Str) (pos : Nat) (cs : List Str) (hs : s0.run io.out = scr base R n line pos)
    (hc : ∀ c ∈ cs, Printable c) : ∃ base', s0.run ((io.put bs!"\n").put (items cs ++ bs!"\n")).out = scr base' (R + 1 + 1) 0 [] 0 := by
  have e1 : s0.run (io.put bs!"\n").out = scr (scr base R n line pos).cell (R + 1) 0 [] 0 := by
    rw [run_put, hs, run_newline]
  have ha : AtRow (s0.run (io.put bs!"\n").out) (scr base R n line pos).cell (R + 1) := ⟨_, 0, e1, fun _ _ => rfl⟩
  have hi : ∀ c ∈ items cs, inRow c = true := by
    intro c hm
    obtain ⟨s, h1, h2⟩ := List.mem_flatMap.1 hm
    rcases List.mem_cons.1 h2 with rfl | h2
    · decide
    · simp [inRow, hc s h1 c h2]
  obtain ⟨base', h1, _⟩ := atRow_newline (atRow_run ha _ hi)
  exact ⟨base', by rw [run_put, run_append, h1]⟩

/-- **C41** While a line is edited the display shows the prompt of the current menu and the line, with the cursor at the editing position: every key but Enter and Ctrl-D,
    among them Tab, Up, Down and Ctrl-L, preserves this. (Names, prompt and history consist of printable characters.) -/
theorem C41_every_key (fuel : Nat) (s0 : Screen) (p p' : Proc σ τ) (k : Key) (x : Option Exn) (hk : EditKey k) (he : k ≠ .eof)
    (ht : TreePrintable p.w.tree) (hp : Printable (promptText p.w)) (h : Editing s0 p) (hr : keypressed A fuel p k = .ok (p', x)) :
    x = none ∧ Editing s0 p' ∧ SameButEditing p p' := by
  obtain ⟨h1, h2, h3, base, R, hb, hs⟩ := h
  have hrep : Rep p.term ⟨(p.term.line.take p.term.pos).reverse, p.term.line.drop p.term.pos⟩ :=
    ⟨by simp [Zip.text], by simp; omega⟩
  have hlen : ((p.term.line.take p.term.pos).reverse).length = p.term.pos := by simp; omega
  have plain : ∀ (t' : Term) (io' : Io), Terminal.keypressed p.term p.w.io k = .ok (t', io', .nothing) → x = none ∧ Editing s0 p' ∧ SameButEditing p p' := by
    intro t' io' ht'
    obtain ⟨g1, t'', io'', g2, g3, g4⟩ := keypressed_display s0 base R (promptText p.w).length p.term _ p.w.io k hrep (by simpa [Zip.text] using h2) hk (by
      simpa [Zip.text, hlen] using hs)
    rw [ht'] at g2
    simp only [Except.ok.injEq, Prod.mk.injEq] at g2
    obtain ⟨rfl, rfl, _⟩ := g2
    unfold keypressed at hr
    simp only [ht', bind, Except.bind, newCommand] at hr
    cases hr
    refine ⟨rfl, ⟨?_, ?_, h3, base, R, hb, ?_⟩, ⟨_, _, rfl, rfl⟩⟩
    · show t'.pos ≤ t'.line.length
      rw [g3.1, g3.2]; simp [Zip.text]
    · show Printable t'.line
      rw [g3.1]; exact g1
    · show s0.run io'.out = scr base R _ t'.line t'.pos
      rw [g4, g3.1, g3.2]
      rfl
  have set : ∀ (h' : History.History) (s : Str), Printable s → HistPrintable h' → Editing s0 (setLine { p with w := { p.w with hist := h' } } s) ∧
      SameButEditing p (setLine { p with w := { p.w with hist := h' } } s) := by
    intro h' s hs1 hh
    exact ⟨⟨Nat.le_refl _, hs1, hh, setLine_shows (t := p.term) ⟨base, R, hb, hs⟩ h1 s hs1⟩, ⟨_, _, rfl, rfl⟩⟩
  obtain ⟨t', io', hn, hr0⟩ : ∃ t' io', Terminal.keypressed p.term p.w.io k = .ok (t', io', Zip.request ⟨(p.term.line.take p.term.pos).reverse, p.term.line.drop p.term.pos⟩ k) ∧ Rep t' (Zip.key ⟨(p.term.line.take p.term.pos).reverse, p.term.line.drop p.term.pos⟩ k) := by
    obtain ⟨_, t'', io'', g2, g3, _⟩ := keypressed_display s0 base R (promptText p.w).length p.term _ p.w.io k hrep (by simpa [Zip.text] using h2) hk (by simpa [Zip.text, hlen] using hs)
    exact ⟨t'', io'', g2, g3⟩
  cases k with
  | ret => exact hk.elim
  | eof => exact absurd rfl he
  | backspace => exact plain t' io' hn
  | canc => exact plain t' io' hn
  | left => exact plain t' io' hn
  | right => exact plain t' io' hn
  | home => exact plain t' io' hn
  | «end» => exact plain t' io' hn
  | ignored => exact plain t' io' hn
  | up =>
    unfold keypressed at hr
    simp only [Terminal.keypressed, bind, Except.bind, newCommand] at hr
    split at hr
    · cases hr
    · rename_i sh hsh
      obtain ⟨s, h'⟩ := sh
      cases hr
      obtain ⟨g1, g2⟩ := previous_printable h3 h2 hsh
      exact ⟨rfl, set h' s g1 g2⟩
  | down =>
    unfold keypressed at hr
    simp only [Terminal.keypressed, bind, Except.bind, newCommand] at hr
    split at hr
    · cases hr
    · rename_i sh hsh
      obtain ⟨s, h'⟩ := sh
      cases hr
      obtain ⟨g1, g2⟩ := next_printable h3 hsh
      exact ⟨rfl, set h' s g1 g2⟩
  | clear =>
    unfold keypressed at hr
    simp only [Terminal.keypressed, bind, Except.bind, newCommand] at hr
    split at hr
    · cases hr
    · rename_i q hq
      cases hr
      obtain ⟨io, rfl, hsh⟩ := redraw_shows hq
      refine ⟨rfl, ⟨Nat.le_refl _, h2, h3, hsh s0 (fun _ _ => b%' ') 0 ?_ hp h2⟩, ⟨_, _, rfl, rfl⟩⟩
      show s0.run (p.w.io.put clearScreen).out = _
      rw [run_put]
      exact clear_screen _ base R _ _ _ hs
  | ascii c =>
    by_cases hc : c = b%'\t'
    · subst hc
      obtain ⟨rfl, htab⟩ := tab_key A hr
      obtain ⟨cs, hcs, hcases⟩ := tab_cases A htab
      have hpr := completions_printable ht hcs
      rcases hcases with ⟨_, rfl⟩ | ⟨c, hc, rfl⟩ | ⟨hlen2, pre, hpre, ⟨_, rfl⟩ | ⟨_, hred⟩⟩
      · exact ⟨rfl, ⟨h1, h2, h3, base, R, hb, hs⟩, ⟨_, _, rfl, rfl⟩⟩
      · have hc' : Printable (c ++ bs!" ") := printable_append.2 ⟨hpr c (by simp [hc]), by intro x hx; rw [List.mem_singleton.1 hx]; decide⟩
        exact ⟨rfl, set p.w.hist _ hc' h3⟩
      · have hc' : Printable pre := by
          cases cs with
          | nil => simp at hlen2
          | cons c cs => exact fun x hx => hpr c (by simp) x ((hpre.1 c (by simp)).subset hx)
        exact ⟨rfl, set p.w.hist _ hc' h3⟩
      · obtain ⟨io, rfl, hsh⟩ := redraw_shows hred
        obtain ⟨base', hb'⟩ := listing_row s0 p.w.io base R _ _ _ cs hs hpr
        exact ⟨rfl, ⟨Nat.le_refl _, h2, h3, hsh s0 _ _ hb' hp h2⟩, ⟨_, _, rfl, rfl⟩⟩
    · have hreq : Zip.request ⟨(p.term.line.take p.term.pos).reverse, p.term.line.drop p.term.pos⟩ (.ascii c) = .nothing := by simp [Zip.request, hc]
      rw [hreq] at hn
      exact plain t' io' hn

/-- **C41** The same for every sequence of such keys. -/
theorem C41_session (fuel : Nat) (s0 : Screen) (ks : List Key) : ∀ (p p' : Proc σ τ) (x : Option Exn), (∀ k ∈ ks, EditKey k ∧ k ≠ .eof) → TreePrintable p.w.tree →
    Printable (promptText p.w) → Editing s0 p → run A fuel ks p = .ok (p', x) →
    x = none ∧ SameButEditing p p' ∧ Shows s0 p'.w.io (promptText p.w) p'.term := by
  induction ks with
  | nil => intro p p' x _ _ _ h hr; cases hr; exact ⟨rfl, ⟨_, _, rfl, rfl⟩, h.shown⟩
  | cons k ks ih =>
    intro p p' x hk ht hp h hr
    unfold run at hr
    simp only [bind, Except.bind] at hr
    split at hr
    · cases hr
    · rename_i r hr1
      obtain ⟨p1, x1⟩ := r
      obtain ⟨rfl, h1, hs1⟩ := C41_every_key A fuel s0 p p1 k x1 (hk k (by simp)).1 (hk k (by simp)).2 ht hp h hr1
      have hpt := same_prompt hs1
      have htree : p1.w.tree = p.w.tree := by obtain ⟨_, _, e, _⟩ := hs1; rw [e]
      obtain ⟨h2, hs2, h3⟩ := ih p1 p' x (fun k hk' => hk k (by simp [hk'])) (by rw [htree]; exact ht) (by rw [hpt]; exact hp) h1 hr
      exact ⟨h2, sameButEditing_trans hs1 hs2, by rw [← hpt]; exact h3⟩

/-- **C41** After Enter, when the command has written any lines of text, the display shows the prompt of the (possibly different) current menu in a row of its own, with the cursor
    after it. -/
theorem C41_after_command (fuel : Nat) (s0 : Screen) (p p' : Proc σ τ) (h : Shows s0 p.w.io (promptText p.w) p.term) (hr : keypressed A fuel p .ret = .ok (p', none)) :
    ∃ w', feed A fuel p.term.line { p.w with io := p.w.io.put bs!"\r\n" } = .ok (w', none) ∧
      (∀ o, w'.io.out = p.w.io.out ++ bs!"\r\n" ++ o → Lines o → Printable (promptText w') → Shows s0 p'.w.io (promptText w') ⟨[], 0⟩) ∧
      ∃ io, p' = ⟨{ w' with io := io }, ⟨[], 0⟩, true⟩ := by
  unfold keypressed at hr
  simp only [Terminal.keypressed, bind, Except.bind, newCommand] at hr
  split at hr
  · cases hr
  · rename_i r hf
    obtain ⟨w', x⟩ := r
    cases x with
    | some e => simp at hr
    | none =>
      simp only at hr
      split at hr
      · cases hr
      · rename_i w2 hw2
        cases hr
        obtain ⟨io, rfl, hio⟩ := prompt_io hw2
        refine ⟨w', hf, ?_, io, rfl⟩
        intro o ho hl hpr
        obtain ⟨base, R, hb, hs⟩ := h
        have e1 : s0.run (p.w.io.out ++ bs!"\r\n") = scr (scr base R (promptText p.w).length p.term.line 0).cell (R + 1) 0 [] 0 := by
          rw [run_append, hs, show bs!"\r\n" = b%'\r' :: bs!"\n" from rfl, run_cons]
          have : (scr base R (promptText p.w).length p.term.line p.term.pos).step b%'\r' = { scr base R (promptText p.w).length p.term.line 0 with col := 0 } := by
            simp [Screen.step, scr]
          rw [this]
          have h2 := run_newline base R (promptText p.w).length p.term.line 0
          rw [← h2]
          rfl
        by_cases hn : o = []
        · subst hn
          obtain ⟨base', hb', hs'⟩ := hio s0 _ (R + 1) (by rw [ho, List.append_nil, e1]) hpr
          exact ⟨base', R + 1, hb', hs'⟩
        · obtain ⟨base2, R2, e2, _, _⟩ := run_lines o _ _ _ hl hn ⟨_, 0, e1, fun _ _ => rfl⟩
          obtain ⟨base', hb', hs'⟩ := hio s0 base2 R2 (by rw [ho, run_append, e2]) hpr
          exact ⟨base', R2, hb', hs'⟩

/-- Typing `su`, Tab, `x`, Tab (which lists nothing), Ctrl-L, Left: the screen shows the prompt and the line. -/
example : (run Sample.app 5 [.ascii b%'s', .ascii b%'u', .ascii b%'\t', .ascii b%'x', .ascii b%'\t', .clear, .left] (Sample.proc Sample.world [])).map
    (fun r => (rowText (promptScreen.run r.1.w.io.out) 0 12, (promptScreen.run r.1.w.io.out).col)) = .ok (bs!"cli> sub x  ", 9) := by rfl

/-- `a` has the completions `add` and `any`, which are listed: the prompt and the line are then in the third row. -/
example : (run Sample.app 5 [.ascii b%'a', .ascii b%'\t'] (Sample.proc Sample.world [])).map
    (fun r => (rowText (promptScreen.run r.1.w.io.out) 0 8, rowText (promptScreen.run r.1.w.io.out) 1 22, rowText (promptScreen.run r.1.w.io.out) 2 8)) =
      .ok (bs!"cli> a  ", bs!"        add     any   ", bs!"cli> a  ") := by rfl

/-! ### C42 -/

/-- Keys that edit the line and ask for nothing. -/
def Quiet : Key → Prop
  | .ascii c => c ≠ b%'\t'
  | .backspace | .canc | .left | .right | .home | .end | .ignored => True
  | _ => False

theorem quiet_run (fuel : Nat) (ks more : List Key) : ∀ (p : Proc σ τ) (z : Zip), (∀ k ∈ ks, Quiet k) → Rep p.term z →
    ∃ io, run A fuel (ks ++ more) p = run A fuel more ⟨{ p.w with io := io }, ⟨(ks.foldl Zip.key z).text, (ks.foldl Zip.key z).before.length⟩, p.active⟩ := by
  induction ks with
  | nil => intro p z _ hz; exact ⟨p.w.io, by
    have : p.term = ⟨z.text, z.before.length⟩ := rep_eq hz
    show run A fuel more p = run A fuel more ⟨p.w, ⟨z.text, z.before.length⟩, p.active⟩
    rw [← this]⟩
  | cons k ks ih =>
    intro p z hk hz
    have hq := hk k (by simp)
    obtain ⟨io1, h1⟩ := keypressed_rep p.term z p.w.io k hz
    have hreq : z.request k = .nothing := by
      cases k with
      | ascii c => simp [Zip.request, show c ≠ b%'\t' from hq]
      | up => exact hq.elim
      | down => exact hq.elim
      | ret => exact hq.elim
      | eof => exact hq.elim
      | clear => exact hq.elim
      | _ => rfl
    rw [hreq] at h1
    obtain ⟨io, h2⟩ := ih ⟨{ p.w with io := io1 }, ⟨(z.key k).text, (z.key k).before.length⟩, p.active⟩ (z.key k) (fun k hk' => hk k (by simp [hk'])) (rep_mk _)
    refine ⟨io, ?_⟩
    rw [List.cons_append]
    refine Eq.trans ?_ h2
    conv => lhs; unfold run
    simp only [bind, Except.bind]
    rw [show keypressed A fuel p k = .ok (⟨{ p.w with io := io1 }, ⟨(z.key k).text, (z.key k).before.length⟩, p.active⟩, none) by
      unfold keypressed; simp only [h1, bind, Except.bind, newCommand]]

/-- What is to happen to a line: it is executed, once, and then there is a prompt, an empty line, and input is accepted. If an exception leaves the execution, it leaves the processor. -/
def enterLine (fuel : Nat) (line : Str) (w : World σ τ) : Except Fault (Proc σ τ × Option Exn) :=
  match feed A fuel line w with
  | .error f => .error f
  | .ok (w', some e) => .ok (⟨w', ⟨[], 0⟩, false⟩, some e)
  | .ok (w', none) =>
    match prompt w' with
    | .error f => .error f
    | .ok w'' => .ok (⟨w'', ⟨[], 0⟩, true⟩, none)

/-- **C42** Whatever editing keys are pressed, Enter then feeds the line that results from them (the text of the two-sided buffer) to the session, exactly once, in the
    state in which the session was before (but for the output). -/
theorem C42_edited_line (fuel : Nat) (p : Proc σ τ) (z : Zip) (hz : p.term.line = z.text ∧ p.term.pos = z.before.length) (ks : List Key) (hk : ∀ k ∈ ks, Quiet k) :
    ∃ io, run A fuel (ks ++ [.ret]) p = enterLine A fuel (ks.foldl Zip.key z).text { p.w with io := io } := by
  obtain ⟨io, h⟩ := quiet_run A fuel ks [.ret] p z hk hz
  refine ⟨io.put bs!"\r\n", ?_⟩
  rw [h]
  unfold run run keypressed enterLine
  simp only [Terminal.keypressed, bind, Except.bind, newCommand]
  cases hf : feed A fuel (ks.foldl Zip.key z).text { p.w with io := io.put bs!"\r\n" } with
  | error f => rfl
  | ok r =>
    obtain ⟨w', x⟩ := r
    cases x with
    | some e => rfl
    | none =>
      simp only
      cases prompt w' <;> rfl

theorem typed_text (line : Str) (h : b%'\t' ∉ line) : ∀ z : Zip, ((line.map Key.ascii).foldl Zip.key z) = ⟨line.reverse ++ z.before, z.after⟩ := by
  induction line with
  | nil => intro z; rfl
  | cons c line ih =>
    intro z
    have h1 : c ≠ b%'\t' := fun e => h (by simp [e])
    simp only [List.map_cons, List.foldl_cons, Zip.key, h1, if_false]
    rw [ih (fun hm => h (by simp [hm]))]
    simp

/-- **C42** Typing any line (without tabs) and Enter feeds that line. -/
theorem C42_typed_line (fuel : Nat) (w : World σ τ) (line : Str) (h : b%'\t' ∉ line) :
    ∃ io, run A fuel (line.map Key.ascii ++ [.ret]) ⟨w, ⟨[], 0⟩, true⟩ = enterLine A fuel line { w with io := io } := by
  obtain ⟨io, hr⟩ := C42_edited_line A fuel ⟨w, ⟨[], 0⟩, true⟩ ⟨[], []⟩ ⟨rfl, rfl⟩ (line.map Key.ascii) (by
    intro k hk
    obtain ⟨c, hc, rfl⟩ := List.mem_map.1 hk
    exact fun e => h (e ▸ hc))
  refine ⟨io, ?_⟩
  rw [hr, typed_text line h]
  simp [Zip.text]

example : (run Sample.app 5 ((bs!"add 1 x2".map Key.ascii) ++ [.left, .backspace, .ret]) (Sample.proc Sample.world [])).map (fun r => (r.1.w.app, r.1.active, r.2)) = .ok ([1], true, none) := by rfl
example : (run Sample.app 5 ((bs!"add 1 x2".map Key.ascii) ++ [.ret]) (Sample.proc Sample.world [])).map (fun r => (r.1.w.app, r.1.active, r.2)) = .ok ([2], true, none) := by rfl

/-! ### C64 -/

/-- **C64** (part) If no exception leaves a key press, input is accepted after it. Missing: the case of an exception. -/
theorem C64_accepts_input_partial (fuel : Nat) (p p' : Proc σ τ) (k : Key) (h : keypressed A fuel p k = .ok (p', none)) (ha : p.active = true) : p'.active = true := by
  unfold keypressed at h
  simp only [bind, Except.bind] at h
  split at h
  · cases h
  · rename_i r _
    obtain ⟨t, io, s⟩ := r
    cases s with
    | nothing => simp only [newCommand] at h; cases h; exact ha
    | eof =>
      simp only [newCommand, bind, Except.bind] at h
      split at h
      · cases h
      · simp only [Except.ok.injEq, Prod.mk.injEq] at h
        obtain ⟨rfl, _⟩ := h
        exact ha
    | command s =>
      simp only [newCommand, bind, Except.bind] at h
      split at h
      · cases h
      · split at h
        · cases h
        · split at h
          · cases h
          · cases h; rfl
    | down =>
      simp only [newCommand, bind, Except.bind] at h
      split at h <;> cases h
      exact ha
    | up =>
      simp only [newCommand, bind, Except.bind] at h
      split at h <;> cases h
      exact ha
    | tab =>
      simp only [newCommand, bind, Except.bind] at h
      split at h
      · cases h
      · rename_i q hq
        cases h
        obtain ⟨_, _, hc⟩ := tab_cases A hq
        rcases hc with ⟨_, rfl⟩ | ⟨c, _, rfl⟩ | ⟨_, pre, _, ⟨_, rfl⟩ | ⟨_, h4⟩⟩
        · exact ha
        · exact ha
        · exact ha
        · obtain ⟨io, rfl, _⟩ := redraw_shows h4; exact ha
    | clear =>
      simp only [newCommand, bind, Except.bind] at h
      split at h
      · cases h
      · rename_i q hq
        cases h
        obtain ⟨io, rfl, _⟩ := redraw_shows hq
        exact ha

namespace Sample
/-- The exception handler throws. -/
def strict : App (List Nat) (List Str) := { app with onException := some (fun s _ _ => ⟨s, [], some (.std bs!"again")⟩) }
end Sample

/-- **C64 refuted** When the application's exception handler throws, the exception leaves the key press and input stays deactivated, although the session goes on. -/
theorem C64_exception_refuted : ∃ (A : App (List Nat) (List Str)) (fuel : Nat) (p p' : Proc (List Nat) (List Str)) (e : Exn),
    p.active = true ∧ keypressed A fuel p .ret = .ok (p', some e) ∧ p'.active = false ∧ p'.w.exit = false := by
  have h : (keypressed Sample.strict 5 (Sample.proc Sample.world bs!"boom") .ret).map (fun r => (r.1.active, r.1.w.exit, r.2)) = .ok (false, false, some (.std bs!"again")) := by rfl
  cases hk : keypressed Sample.strict 5 (Sample.proc Sample.world bs!"boom") .ret with
  | error f => rw [hk] at h; cases h
  | ok r =>
    obtain ⟨p', x⟩ := r
    rw [hk] at h
    simp only [Except.map, Except.ok.injEq, Prod.mk.injEq] at h
    obtain ⟨h1, h2, rfl⟩ := h
    exact ⟨Sample.strict, 5, _, p', _, rfl, hk, h1, h2⟩

end Verif.Props
