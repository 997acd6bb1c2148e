import Verif.Proofs.DraftKeys

set_option linter.unusedSimpArgs false

/-! # Tab, Enter and Ctrl-D in the program `complete` -/

namespace Verif.Showcase
open Spec Props Processor
open Terminal (Key)
open Script (Harmless line_same line_bytes)

variable {σ τ α : Type}

/-! ### The menus, as the completion sees them -/

theorem path_down {g : Bool} {a : Place} {p : MenuInfo} {kids : Forest} {anc : Path} {m : MenuInfo} {k : Forest} (h : path g a = (p, kids) :: anc) (hm : Spec.Entry.menu m k ∈ entries kids) :
    ∃ b, Above a b ∧ path g b = (m, k) :: (p, kids) :: anc ∧ m.name = b.name ∧ m.id = b.id := by
  cases a with
  | root =>
    cases h
    have : m = subInfo ∧ k = subKids := by
      cases g <;> simpa [rootKids, firstKids, lastKids, entries] using hm
    obtain ⟨rfl, rfl⟩ := this
    exact ⟨.sub, .inl ⟨rfl, rfl⟩, rfl, rfl, rfl⟩
  | sub =>
    cases h
    have : m = subsubInfo ∧ k = subsubKids := by simpa [subKids, entries] using hm
    obtain ⟨rfl, rfl⟩ := this
    exact ⟨.subsub, .inr ⟨rfl, rfl⟩, rfl, rfl, rfl⟩
  | subsub => cases h; simp [subsubKids, entries] at hm

theorem path_below (g : Bool) {a b : Place} (h : Above a b) : ∃ p kids anc m k, path g a = (p, kids) :: anc ∧ Spec.Entry.menu m k ∈ entries kids ∧ path g b = (m, k) :: (p, kids) :: anc ∧ m.name = b.name ∧ m.id = b.id := by
  rcases h with ⟨rfl, rfl⟩ | ⟨rfl, rfl⟩
  · exact ⟨_, _, _, subInfo, subKids, rfl, by cases g <;> simp [rootKids, firstKids, lastKids, entries], rfl, rfl, rfl⟩
  · exact ⟨_, _, _, subsubInfo, subsubKids, rfl, by simp [subKids, entries], rfl, rfl, rfl⟩

theorem path_up {g : Bool} {a : Place} {m p : MenuInfo} {kids pk : Forest} {anc : Path} (h : path g a = (m, kids) :: (p, pk) :: anc) : ∃ b, Above b a ∧ path g b = (p, pk) :: anc ∧ p.name = b.name ∧ p.id = b.id := by
  cases a with
  | root => cases h
  | sub => cases h; exact ⟨.root, .inl ⟨rfl, rfl⟩, rfl, rfl, rfl⟩
  | subsub => cases h; exact ⟨.sub, .inr ⟨rfl, rfl⟩, rfl, rfl, rfl⟩

theorem path_above (g : Bool) {a b : Place} (h : Above b a) : ∃ m kids p pk anc, path g a = (m, kids) :: (p, pk) :: anc ∧ path g b = (p, pk) :: anc ∧ p.name = b.name ∧ p.id = b.id := by
  rcases h with ⟨rfl, rfl⟩ | ⟨rfl, rfl⟩ <;> exact ⟨_, _, _, _, _, rfl, rfl, rfl, rfl⟩

theorem name_dots (p : Place) (x : Str) : ¬ p.name <+: bs!".." ++ x := by
  rintro ⟨t, ht⟩
  cases p <;> simp [Place.name] at ht

theorem typing_reads {g : Bool} {P Q : Path} {l r : Str} {ws : List Str} (h : Typing P l ws Q r) : ∀ {a}, P = path g a → ∃ q, Q = path g q ∧ Reads a l ws q r := by
  induction h with
  | here p r => intro a e; exact ⟨a, e, .here⟩
  | down hm hg _ ih =>
    intro a e
    obtain ⟨b, h1, h2, h3, _⟩ := path_down e.symm hm
    obtain ⟨q, e1, e2⟩ := ih h2.symm
    rw [h3]
    exact ⟨q, e1, .down h1 hg e2⟩
  | up hg _ ih =>
    intro a e
    obtain ⟨b, h1, h2, h3, _⟩ := path_up e.symm
    obtain ⟨q, e1, e2⟩ := ih h2.symm
    rw [h3]
    exact ⟨q, e1, .up h1 (.inl rfl) hg e2⟩
  | dots hg _ _ ih =>
    intro a e
    obtain ⟨b, h1, h2, h3, _⟩ := path_up e.symm
    obtain ⟨q, e1, e2⟩ := ih h2.symm
    exact ⟨q, e1, .up h1 (.inr rfl) hg e2⟩

theorem reads_typing (g : Bool) {a q : Place} {l r : Str} {ws : List Str} (h : Reads a l ws q r) : Typing (path g a) l ws (path g q) r := by
  induction h with
  | here => exact .here _ _
  | down h1 hg _ ih =>
    obtain ⟨p, kids, anc, m, k, e1, e2, e3, e4, _⟩ := path_below g h1
    rw [e1, ← e4]
    rw [e3] at ih
    exact .down e2 hg ih
  | up h1 ht hg _ ih =>
    obtain ⟨m, kids, p, pk, anc, e1, e2, e3, _⟩ := path_above g h1
    rw [e1]
    rw [e2] at ih
    rcases ht with rfl | rfl
    · rw [← e3]; exact .up hg ih
    · refine .dots hg ?_ ih
      rw [e3, List.append_assoc]
      exact name_dots _ _

/-- The commands that can be executed. -/
theorem cmd_names {s : Seat} {w : W τ} (h : At s w) {q : Place} {m : MenuInfo} {kids : Forest} {anc : Path} (hp : path s.gone q = (m, kids) :: anc) (e : Str) :
    (∃ c, Spec.Entry.cmd c ∈ entries kids ∧ w.dis c.id = false ∧ e = c.name) ↔ e ∈ s.names q := by
  have hd := h.others
  have h15 := h.color15
  have h16 := h.color16
  have d (i : Nat) (h1 : i ≠ 15) (h2 : i ≠ 16) : w.dis i = false := hd i h1 h2
  cases q with
  | root =>
    cases hp
    cases hg : s.gone with
    | true => simp [rootKids, firstKids, lastKids, entries, Seat.names, cmd, hg, d, or_assoc]
    | false =>
      have h15 := h15 hg
      have h16 := h16 hg
      cases hc : s.colour with
      | true =>
        rw [hc] at h15 h16
        simp [rootKids, firstKids, lastKids, entries, Seat.names, cmd, colorCmd, nocolorCmd, hg, hc, d, h15, h16, or_assoc]
      | false =>
        rw [hc] at h15 h16
        simp [rootKids, firstKids, lastKids, entries, Seat.names, cmd, colorCmd, nocolorCmd, hg, hc, d, h15, h16, or_assoc]
  | sub => cases hp; simp [subKids, entries, Seat.names, cmd, d]
  | subsub => cases hp; simp [subsubKids, entries, Seat.names, cmd, d]

theorem begins_iff {s : Seat} {w : W τ} (h : At s w) (q : Place) (r e : Str) : Spec.Begins w.dis (path s.gone q) r e ↔ s.Begins q r e := by
  have d : ∀ p : Place, w.dis p.id = false := by intro p; cases p <;> exact h.others _ (by decide) (by decide)
  constructor
  · intro hb
    generalize hp : path s.gone q = P at hb
    cases hb with
    | cmd h1 h2 h3 => exact .inl ⟨(cmd_names h hp _).1 ⟨_, h1, h2, rfl⟩, h3⟩
    | menu h1 h2 h3 h4 =>
      obtain ⟨b, e1, _, e3, _⟩ := path_down hp h1
      exact .inr ⟨b, .inl e1, e3, h3, h4⟩
    | parent h1 h2 h3 h4 =>
      obtain ⟨b, e1, _, e3, _⟩ := path_up hp
      exact .inr ⟨b, .inr e1, e3, h2, h3⟩
  · rintro (⟨h1, h2⟩ | ⟨b, h1 | h1, rfl, h2, h3⟩)
    · have hp : ∃ m kids anc, path s.gone q = (m, kids) :: anc := by cases q <;> exact ⟨_, _, _, rfl⟩
      obtain ⟨m, kids, anc, hp⟩ := hp
      obtain ⟨c, g1, g2, g3⟩ := (cmd_names h hp e).2 h1
      rw [hp, g3]
      exact .cmd g1 g2 (by rw [← g3]; exact h2)
    · obtain ⟨p, kids, anc, m, k, e1, e2, e3, e4, e5⟩ := path_below s.gone h1
      rw [e1, ← e4]
      exact .menu e2 (by rw [e5]; exact d b) (by rw [e4]; exact h2) (by rw [e4]; exact h3)
    · obtain ⟨m, kids, p, pk, anc, e1, e2, e3, e4⟩ := path_above s.gone h1
      rw [e1, ← e3]
      refine .parent (by rw [e4]; exact d b) (by rw [e3]; exact h2) (by rw [e3]; exact h3) ?_
      rintro ⟨x, rfl⟩
      obtain ⟨y, hy⟩ := h2
      cases b <;> simp [Place.name] at hy

/-- What the completion offers. -/
theorem offers {s : Seat} {w : W τ} (h : At s w) {p : Platform} {fuel : Nat} {line : Str} {cs : List Str} (hc : Completion.completions p fuel w line = .ok cs) : s.Offers line cs := by
  obtain ⟨gap, typed, P, e, hg, hp, hs, hm⟩ := completions_spec hc
  refine ⟨hs, fun c => ?_⟩
  have hP : P = path s.gone s.place := by rw [h.tree, h.current, locate_place] at hp; exact (Option.some.inj hp).symm
  rw [hm c, hP]
  constructor
  · rintro (h1 | ⟨ws, Q, r, x, h1, h2, h3⟩)
    · exact ⟨gap, typed, e, hg, .inl h1⟩
    · obtain ⟨q, rfl, h4⟩ := typing_reads h1 rfl
      exact ⟨gap, typed, e, hg, .inr ⟨ws, q, r, x, h4, (begins_iff h q r x).1 h2, h3⟩⟩
  · rintro ⟨gap', typed', e', hg', h1⟩
    obtain ⟨-, rfl⟩ := Completion.gap_unique hg hg' (e.symm.trans e')
    rcases h1 with h1 | ⟨ws, q, r, x, h1, h2, h3⟩
    · exact .inl h1
    · exact .inr ⟨ws, _, r, x, reads_typing s.gone h1, (begins_iff h q r x).2 h2, h3⟩

theorem tree_treeOf (g : Bool) : Separated ((treeOf g).root.name = []) (treeOf g).kids ∧ TreePrintable (treeOf g) := by
  constructor
  · cases g <;> simp [treeOf, rootInfo, rootKids, firstKids, lastKids, colorCmd, nocolorCmd, subKids, subsubKids, subInfo, subsubInfo, Separated]
  · cases g <;> (simp only [TreePrintable, treeOf, rootInfo, rootKids, firstKids, lastKids, colorCmd, nocolorCmd, subKids, subsubKids, subInfo, subsubInfo, NamesPrintable, Printable, cmd, cond]; decide)

/-! ### One key -/

/-- A key is handled, and what it leads to is what it should. -/
def Steps (E : Env) (A : App St τ) (fuel : Nat) (s0 : Screen) (base : Nat → Nat → Byte) (R c : Nat) (d : Desk) (p : Proc St τ) (k : Key) : Prop :=
  ∃ q d' o, keypressed A fuel p k = .ok (q, none) ∧ On d' q ∧ Tidy d' ∧ (∀ ks d'' o', Drafting E d' ks d'' o' → Drafting E d (k :: ks) d'' (o ++ o')) ∧
    ∃ base' R' c', (scr base R c [] 0).run o = scr base' R' c' [] 0 ∧ Sees s0 base' R' c' d' q.w.io

/-- It ends the session. -/
def Ends (telnet : Bool) (A : App St τ) (fuel : Nat) (s0 : Screen) (base : Nat → Nat → Byte) (R c : Nat) (p : Proc St τ) (k : Key) (o : Str) : Prop :=
  ∃ q, keypressed A fuel p k = .ok (q, none) ∧ q.w.exit = true ∧ q.w.app = ⟨!telnet, false⟩ ∧ s0.run q.w.io.out = (scr base R c [] 0).run o

theorem written (d : Desk) {l : Str} (hp : Printable l) (ht : Tidy d) : Tidy (d.write l) := ⟨by simpa only [Desk.write, Desk.text, text_ofLine] using hp, ht.book, ht.draft, ht.room⟩

theorem rewrite_step {s0 : Screen} {base : Nat → Nat → Byte} {R c : Nat} {d : Desk} {p : Proc St τ} {l : Str} (ho : On d p) (hs : Sees s0 base R c d p.w.io) (hp : Printable l) :
    On (d.write l) (setLine p l) ∧ Sees s0 base R c (d.write l) (setLine p l).w.io :=
  write_step (d' := d.write l) (h := p.w.hist) ho hs ho.wf ho.place.kept ho.looking rfl rfl hp

theorem tab_step (E : Env) (A : App St τ) (fuel : Nat) {s0 : Screen} {base : Nat → Nat → Byte} {R c : Nat} {d : Desk} {p : Proc St τ} (hf : 2 * d.text.length + 2 ≤ fuel) (ho : On d p) (ht : Tidy d) (hs : Sees s0 base R c d p.w.io) :
    Steps E A fuel s0 base R c d p (.ascii 9) := by
  have hl : p.term.line = d.text := by rw [ho.term]
  have ha := ho.place
  obtain ⟨cs, hcs⟩ := C63_defined_partial A.plat p.w d.text (by rw [show p.w.tree = _ from ha.tree]; exact (tree_treeOf _).1) (by rw [show p.w.tree = _ from ha.tree, show p.w.current = _ from ha.current, locate_place]; rfl)
    (.inr fun c hc => by have := ht.line c hc; simp [printable] at this; omega) fuel hf
  have hoff : d.seat.Offers d.text cs := offers ha (w := { p.w with hist := settled p.w.hist }) (p := A.plat) (fuel := fuel) hcs
  have hpr : ∀ c ∈ cs, Printable c := completions_printable (by rw [show p.w.tree = _ from ha.tree]; exact (tree_treeOf _).2) hcs
  have key : ∀ q, tab A fuel p = .ok q → keypressed A fuel p (.ascii 9) = .ok (q, none) := by
    intro q hq
    simp only [keypressed, Terminal.keypressed, show ((9 : Byte) = b%'\t') = True by simp, if_true, bind, Except.bind, newCommand]
    rw [show ({ p with w := { p.w with io := p.w.io } } : Proc St τ) = p from rfl, hq]
  match cs, hoff, hpr, hcs with
  | [], hoff, _, hcs =>
    have htab : tab A fuel p = .ok p := by simp only [tab, hl, hcs, bind, Except.bind]
    exact ⟨p, d, [], key _ htab, ho, ht, fun ks d'' o' h => .tabNone hoff h, base, R, c, rfl, hs⟩
  | [x], hoff, hpr, hcs =>
    have htab : tab A fuel p = .ok (setLine p (x ++ bs!" ")) := by simp only [tab, hl, hcs, bind, Except.bind]
    have hx : Printable (x ++ bs!" ") := printable_append.2 ⟨hpr x (by simp), by intro y hy; revert hy y; decide⟩
    obtain ⟨g1, g2⟩ := rewrite_step ho hs hx
    exact ⟨_, d.write (x ++ bs!" "), [], key _ htab, g1, written d hx ht, fun ks d'' o' h => .tabOne hoff h, base, R, c, rfl, g2⟩
  | x :: y :: cs, hoff, hpr, hcs =>
    obtain ⟨pre, hpre, hp1, hp2⟩ := C38_longest_common_prefix (x :: y :: cs) (by simp)
    have htab : tab A fuel p = if pre.length > d.text.length then .ok (setLine p pre) else redraw { p with w := (p.w.put bs!"\n").put (items (x :: y :: cs) ++ bs!"\n") } d.text := by
      simp only [tab, hl, hcs, hpre, bind, Except.bind]
    by_cases hlen : pre.length > d.text.length
    · rw [if_pos hlen] at htab
      have hx : Printable pre := fun b hb => hpr x (by simp) b ((hp1 x (by simp)).subset hb)
      obtain ⟨g1, g2⟩ := rewrite_step ho hs hx
      exact ⟨_, d.write pre, [], key _ htab, g1, written d hx ht, fun ks d'' o' h => .tabMore hoff ⟨hp1, hp2⟩ hlen h, base, R, c, rfl, g2⟩
    · rw [if_neg hlen] at htab
      have e1 : (scr base R c [] 0).run (d.seat.echoes d.text ++ bs!"\n") = s0.run (p.w.io.put bs!"\n").out := by
        rw [run_append, echoes_run _ _ _ _ _ ht.line, run_put, hs, feed_run, feed_run]
      obtain ⟨base1, e2⟩ := listing_row s0 p.w.io base R c d.text d.line.before.length (x :: y :: cs) hs hpr
      have e3 : s0.run (p.w.io.put (bs!"\n" ++ (items (x :: y :: cs) ++ bs!"\n"))).out = scr base1 (R + 1 + 1) 0 [] 0 := by
        rw [← e2]; simp [Io.put]
      obtain ⟨q, h1, h2, h3, base', c', h4, h5⟩ := redraw_step _ ho ht e3
      refine ⟨q, d.write d.text, d.seat.echoes d.text ++ bs!"\n" ++ (x :: y :: cs).flatMap (bs!"\t" ++ ·) ++ bs!"\n" ++ d.seat.prompt, key _ ?_, h2, h3, ?_, base', _, c', ?_, h5⟩
      · rw [htab, ← hl, ← h1]
        simp [World.put, Io.put]
      · intro ks d'' o' h
        exact .tabList hoff ⟨hp1, hp2⟩ (by omega) h
      · rw [run_append, ← h4, ← e2, List.append_assoc (d.seat.echoes d.text ++ bs!"\n"), run_append, e1, run_put _ _ (items (x :: y :: cs) ++ bs!"\n")]
        rfl

theorem enter_step (E : Env) (hq : Quiet E) (he : Decent E) {store : τ → List Str → τ} {stored : τ → List Str} {telnet : Bool} (fuel : Nat) {s0 : Screen} {base : Nat → Nat → Byte} {R c : Nat} {d : Desk} {p : Proc St τ}
    (hw : Within E (fuel + 1) d.seat d.text) (hn : ¬ Fails E d.seat d.text) (ho : On d p) (ht : Tidy d) (hs : Sees s0 base R c d p.w.io) :
    (¬ Quits d.seat d.text ∧ Steps E (app E store stored telnet) (fuel + 2) s0 base R c d p .ret) ∨
    (Quits d.seat d.text ∧ Ends telnet (app E store stored telnet) (fuel + 2) s0 base R c p .ret (d.seat.echoes d.text ++ bs!"\r\n" ++ farewell telnet)) := by
  have hl : p.term.line = d.text := by rw [ho.term]
  have ha : At d.seat { p.w.put bs!"\r\n" with hist := settled (p.w.put bs!"\r\n").hist } := at_keeps ho.place ho.prompted (keeps_put _ _)
  have e1 : (scr base R c [] 0).run (d.seat.echoes d.text ++ bs!"\r\n") = s0.run (p.w.io.put bs!"\r\n").out := by
    rw [run_append, echoes_run _ _ _ _ _ ht.line, run_put, hs, crlf_run, crlf_run]
  have e2 : s0.run (p.w.io.put bs!"\r\n").out = scr (scr base R c d.text 0).cell (R + 1) 0 [] 0 := by rw [run_put, hs, crlf_run]
  have key : keypressed (app E store stored telnet) (fuel + 2) p .ret = (do
      let (w, x) ← feed (app E store stored telnet) (fuel + 2) d.text (p.w.put bs!"\r\n")
      match x with
      | some e => .ok (⟨w, ⟨[], 0⟩, false⟩, some e)
      | none => do
        let w ← prompt w
        .ok (⟨w, ⟨[], 0⟩, true⟩, none)) := by
    simp only [keypressed, Terminal.keypressed, bind, Except.bind, newCommand, hl]
    rfl
  have shown : ∀ (s' : Seat) {t : Str} {io : Io}, Lines t → io.out = (p.w.io.put bs!"\r\n").out ++ t ++ s'.prompt →
      ∃ base' R' c', (scr base R c [] 0).run (d.seat.echoes d.text ++ bs!"\r\n" ++ t ++ s'.prompt) = scr base' R' c' [] 0 ∧ s0.run io.out = scr base' R' c' [] 0 := by
    intro s' t io h1 h2
    obtain ⟨base', R', c', h3⟩ := answer_run s' h1 (scr base R c d.text 0).cell (R + 1)
    have h4 : (s0.run (p.w.io.put bs!"\r\n").out).run (t ++ s'.prompt) = scr base' R' c' [] 0 := by rw [e2, h3]
    refine ⟨base', R', c', ?_, ?_⟩
    · rw [List.append_assoc _ t, run_append, e1, h4]
    · rw [h2, List.append_assoc, run_append, h4]
  by_cases hblank : Lex.Line d.text []
  · have hnq : ¬ Quits d.seat d.text := by
      intro h
      cases h with
      | exit h => cases line_same hblank h
      | again h _ _ => exact (recalls_kind h).1 hblank
    obtain ⟨io, p1, p2, p3⟩ := prompt_on ha ho.prompted
    obtain ⟨base', R', c', g1, g2⟩ := shown d.seat lines_nil (by rw [p3]; simp [World.put])
    refine .inl ⟨hnq, ⟨{ p.w.put bs!"\r\n" with io := io }, ⟨[], 0⟩, true⟩, ⟨d.seat, ⟨[], []⟩, d.back⟩, d.seat.echoes d.text ++ bs!"\r\n" ++ [] ++ d.seat.prompt, ?_, ⟨p2, ho.wf, ho.looking, rfl, rfl, ho.prompted⟩,
      ⟨by simp [Desk.text, Zip.text, Printable], ht.book, ht.draft, ht.room⟩, ?_, base', R', c', g1, g2⟩
    · rw [key, feed_blank _ hblank]
      simp only [bind, Except.bind, p1]
    · intro ks d'' o' h
      have h' : Drafting E ⟨d.seat.prompted, ⟨[], []⟩, d.back⟩ ks d'' o' := by rw [ho.prompted]; exact h
      exact .enter (.blank hblank) (.inl ⟨hblank, rfl⟩) h'
  · obtain ⟨toks, htoks⟩ : ∃ toks, Lex.Line d.text toks := ⟨_, (split_iff _ _).1 (C03_split_total d.text).choose_spec⟩
    have hne : toks ≠ [] := by rintro rfl; exact hblank htoks
    have hfeed : feed (app E store stored telnet) (fuel + 2) d.text (p.w.put bs!"\r\n") = feed (app E store stored telnet) (fuel + 2) d.text { p.w.put bs!"\r\n" with hist := settled (p.w.put bs!"\r\n").hist } := by
      rw [feed_eq _ htoks hne, feed_eq _ htoks hne]
      have : History.newCommand (settled (p.w.put bs!"\r\n").hist) d.text = History.newCommand (p.w.put bs!"\r\n").hist d.text := settled_command ho.wf _
      simp only [this]
      rfl
    rcases answer_step (store := store) (stored := stored) (telnet := telnet) E hq (fuel + 1) ha hw with ⟨w', g1, g2, g3, g4, g5⟩ | ⟨g1, _⟩ | ⟨w', s', t, _, g2, g3, g4, g5⟩
    · refine .inr ⟨g1, ⟨w', ⟨[], 0⟩, true⟩, ?_, g4, g5, ?_⟩
      · rw [key, hfeed, g2]
        simp only [bind, Except.bind, prompt, g4, if_true]
      · show s0.run w'.io.out = _
        rw [g3, run_append, run_append _ _ (farewell telnet), e1]
        rfl
    · exact absurd g1 hn
    · obtain ⟨l1, l2, l3⟩ := answer_lines he g3 ht.book ht.line
      obtain ⟨w2, p1, p2, p3⟩ := prompt_says g4
      have hset : settled w2.hist = w2.hist := looking_none p2.kept.mode
      obtain ⟨base', R', c', k1, k2⟩ := shown s' (io := w2.io) l1 (by rw [p3, g5]; rfl)
      refine .inl ⟨fun h => answer_no_quit g3 h, ⟨w2, ⟨[], 0⟩, true⟩, ⟨s'.prompted, ⟨[], []⟩, none⟩, d.seat.echoes d.text ++ bs!"\r\n" ++ t ++ s'.prompt, ?_, ⟨?_, p2.hist, p2.kept.mode, rfl, rfl, prompted_twice _⟩,
        ⟨by simp [Desk.text, Zip.text, Printable], l2, by simp, ?_⟩, ?_, base', R', c', k1, k2⟩
      · rw [key, hfeed, g2]
        simp only [bind, Except.bind, p1]
      · show At s'.prompted { w2 with hist := settled w2.hist }
        rw [hset]; exact p2
      · show 1 ≤ s'.prompted.book.room
        have : s'.prompted.book.room = s'.book.room := rfl
        rw [this, l3]; exact ht.room
      · intro ks d'' o' h
        exact .enter g3 (.inr ⟨hblank, rfl⟩) h

theorem eof_step (E : Env) {store : τ → List Str → τ} {stored : τ → List Str} {telnet : Bool} (fuel : Nat) {s0 : Screen} {base : Nat → Nat → Byte} {R c : Nat} {d : Desk} {p : Proc St τ} (ho : On d p) (ht : Tidy d) (hs : Sees s0 base R c d p.w.io) :
    Ends telnet (app E store stored telnet) fuel s0 base R c p .eof (d.seat.echoes d.text ++ leftwards d.line.after.length ++ farewell telnet) := by
  have hg : ∃ cmds, History.getCommands p.w.hist = .ok cmds := by
    unfold History.getCommands
    split
    · rename_i hm
      have := (ho.wf.browse hm)
      split
      · rename_i he; rw [he] at this; simp at this
      · exact ⟨_, rfl⟩
    · exact ⟨_, rfl⟩
  obtain ⟨cmds, hg⟩ := hg
  have hx : ∃ w', exitSession (app E store stored telnet) p.w = .ok (w', none) ∧ w'.io.out = p.w.io.out ++ farewell telnet ∧ w'.exit = true ∧ w'.app = ⟨!telnet, false⟩ := by
    have ha : p.w.app = ⟨false, false⟩ := ho.place.app
    cases telnet
    all_goals
      refine ⟨_, by
        simp only [exitSession, app, leaves, writes, callAction, optAction, World.effect, World.note, List.foldl_cons, List.foldl_nil, World.act, World.put, Io.put, hg, Bool.false_eq_true, if_false, if_true]
        rfl, ?_, rfl, ?_⟩
      · simp [farewell]
      · simp [ha]
  obtain ⟨w', h1, h2, h3, h4⟩ := hx
  refine ⟨{ p with w := w' }, ?_, h3, h4, ?_⟩
  · simp only [keypressed, Terminal.keypressed, bind, Except.bind, newCommand]
    rw [show ({ p.w with io := p.w.io } : W τ) = p.w from rfl, h1]
  · show s0.run w'.io.out = _
    have e : (scr base R c [] 0).run (d.seat.echoes d.text ++ leftwards d.line.after.length) = scr base R c d.text d.line.before.length := line_run _ _ _ _ _ ht.line
    rw [h2, run_append, run_append, hs, e]

end Verif.Showcase
