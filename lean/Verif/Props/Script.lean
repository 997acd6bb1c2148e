import Verif.Proofs.ScriptLoop

set_option linter.unusedSimpArgs false

/-!
# C108: what the programs `filesession` and `simplelocalsession` write
-/

namespace Verif.Script
open Spec Props
open FromString (Value)

/-! ### The output is determined -/

theorem digits_head {ds : Str} (h : Number.Digits ds) (c : Byte) (hc : c = b%'+' ∨ c = b%'-') (t : Str) : ds ≠ c :: t := by
  rintro rfl
  have : 48 ≤ c.toNat ∧ c.toNat ≤ 57 := h.2 c (by simp)
  rcases hc with rfl | rfl <;> revert this <;> decide

theorem spells_same {s : Str} {i j : Int} (h1 : Number.SpellsInt s i) (h2 : Number.SpellsInt s j) : i = j := by
  obtain ⟨a, ha, h1⟩ := h1
  obtain ⟨b, hb, h2⟩ := h2
  rcases h1 with ⟨rfl, rfl⟩ | ⟨rfl, rfl⟩ | ⟨rfl, rfl⟩ <;> rcases h2 with ⟨e, rfl⟩ | ⟨e, rfl⟩ | ⟨e, rfl⟩ <;>
    first
    | (subst e; first | rfl | exact absurd rfl (digits_head ‹_› _ (.inl rfl) _) | exact absurd rfl (digits_head ‹_› _ (.inr rfl) _))
    | (injection e with _ e; subst e; rfl)
    | (exfalso; injection e with e _; revert e; decide)

theorem value_same : ∀ {a b : Str}, (∀ c ∈ a, Number.Digit c) → (∀ c ∈ b, Number.Digit c) → a.length = b.length → Number.value a = Number.value b → a = b
  | [], [], _, _, _, _ => rfl
  | [], _ :: _, _, _, h, _ => by simp at h
  | _ :: _, [], _, _, h, _ => by simp at h
  | c :: a, d :: b, ha, hb, hl, hv => by
    have hl : a.length = b.length := by simpa using hl
    have h1 := Plugged.value_lt (s := a) (fun x hx => ha x (by simp [hx]))
    have h2 := Plugged.value_lt (s := b) (fun x hx => hb x (by simp [hx]))
    have hc : 48 ≤ c.toNat ∧ c.toNat ≤ 57 := ha c (by simp)
    have hd : 48 ≤ d.toNat ∧ d.toNat ≤ 57 := hb d (by simp)
    simp only [Number.value, hl] at hv h1
    have e : c.toNat - 48 = d.toNat - 48 := by
      rcases Nat.lt_trichotomy (c.toNat - 48) (d.toNat - 48) with h | h | h
      · have := Nat.mul_le_mul_right (10 ^ b.length) (Nat.succ_le_of_lt h)
        rw [Nat.succ_mul] at this; omega
      · exact h
      · have := Nat.mul_le_mul_right (10 ^ b.length) (Nat.succ_le_of_lt h)
        rw [Nat.succ_mul] at this; omega
    rw [e] at hv
    have e2 : c = d := UInt8.toNat_inj.1 (by omega)
    rw [e2, value_same (fun x hx => ha x (by simp [hx])) (fun x hx => hb x (by simp [hx])) hl (by omega)]

theorem shows_unique {s t : Str} {i : Int} (h1 : Shows s i) (h2 : Shows t i) : s = t := by
  have hlen : s.length = t.length := Nat.le_antisymm (h1.2 t h2.1) (h2.2 s h1.1)
  -- a shortest spelling has no plus sign
  have norm : ∀ {u : Str}, Shows u i → ∃ ds, Number.Digits ds ∧ ((u = ds ∧ i = Number.value ds) ∨ (u = b%'-' :: ds ∧ i = -(Number.value ds : Int) ∧ i ≠ 0)) := by
    intro u hu
    obtain ⟨ds, hd, h⟩ := hu.1
    rcases h with h | ⟨rfl, h⟩ | ⟨rfl, h⟩
    · exact ⟨ds, hd, .inl h⟩
    · have := hu.2 ds ⟨ds, hd, .inl ⟨rfl, h⟩⟩
      simp at this; omega
    · by_cases h0 : i = 0
      · have := hu.2 ds ⟨ds, hd, .inl ⟨rfl, by omega⟩⟩
        simp at this; omega
      · exact ⟨ds, hd, .inr ⟨rfl, h, h0⟩⟩
  obtain ⟨a, ha, e1⟩ := norm h1
  obtain ⟨b, hb, e2⟩ := norm h2
  rcases e1 with ⟨rfl, e1⟩ | ⟨rfl, e1, _⟩ <;> rcases e2 with ⟨rfl, e2⟩ | ⟨rfl, e2, _⟩
  · exact value_same ha.2 hb.2 hlen (by omega)
  · omega
  · omega
  · rw [value_same ha.2 hb.2 (by simpa using hlen) (by omega)]

theorem does_unique : ∀ {toks : List Str} {pl : Place} {r r' : Reply}, Does pl toks r → Does pl toks r' → r = r'
  | [], _, _, _, h, _ => absurd h does_nil
  | t :: rest, pl, r, r', h1, h2 => by
    have ih := @does_unique rest
    have z : ∀ {pl r}, rest = [] → ¬ Does pl rest r := by rintro _ _ rfl; exact does_nil
    cases pl with
    | root =>
      rcases does_root.1 h1 with ⟨a, b, c⟩ | ⟨a, b, c⟩ | ⟨a, s, d, i, b, b1, _, _, b2, c⟩ | ⟨a, b, c⟩ | ⟨a, b, c⟩ | ⟨a, b, c⟩ | ⟨a, b⟩ <;>
        rcases does_root.1 h2 with ⟨a', b', c'⟩ | ⟨a', b', c'⟩ | ⟨a', s', d', i', b', b1', _, _, b2', c'⟩ | ⟨a', b', c'⟩ | ⟨a', b', c'⟩ | ⟨a', b', c'⟩ | ⟨a', b'⟩ <;>
        first
        | exact c.trans c'.symm
        | exact ih b b'
        | exact absurd b' (z b)
        | exact absurd b (z b')
        | (exfalso; rw [a] at a'; revert a'; decide)
        | (rw [b] at b'; cases b'; cases spells_same b1 b1'; rw [c, c', shows_unique b2 b2'])
    | sub =>
      rcases does_sub.1 h1 with ⟨a, b, c⟩ | ⟨a, b, c⟩ | ⟨a, b, c⟩ | ⟨a, b⟩ | ⟨a, b, c⟩ | ⟨a, b⟩ <;>
        rcases does_sub.1 h2 with ⟨a', b', c'⟩ | ⟨a', b', c'⟩ | ⟨a', b', c'⟩ | ⟨a', b'⟩ | ⟨a', b', c'⟩ | ⟨a', b'⟩ <;>
        first
        | exact c.trans c'.symm
        | exact ih b b'
        | exact absurd b' (z b)
        | exact absurd b (z b')
        | (exfalso; rw [a] at a'; revert a'; decide)
        | (exfalso; rw [a'] at a; revert a; decide)
        | (exfalso; rcases a with a | a <;> rcases a' with a' | a' <;> rw [a] at a' <;> revert a' <;> decide)
    | subsub =>
      rcases does_subsub.1 h1 with ⟨a, b, c⟩ | ⟨a, b, c⟩ | ⟨a, b⟩ <;>
        rcases does_subsub.1 h2 with ⟨a', b', c'⟩ | ⟨a', b', c'⟩ | ⟨a', b'⟩ <;>
        first
        | exact c.trans c'.symm
        | exact ih b b'
        | exact absurd b' (z b)
        | exact absurd b (z b')
        | (exfalso; rw [a] at a'; revert a'; decide)
        | (exfalso; rw [a'] at a; revert a; decide)
        | (exfalso; rcases a with a | a <;> rcases a' with a' | a' <;> rw [a] at a' <;> revert a' <;> decide)

theorem does_tokens {pl : Place} {toks : List Str} {r : Reply} (h : Does pl toks r) : toks ∉ [[], [bs!"help"], [bs!"history"], [bs!"exit"]] ∧ ∀ a, toks ≠ [bs!"!", a] := by
  constructor
  · intro hm
    simp only [List.mem_cons, List.not_mem_nil, or_false] at hm
    rcases hm with rfl | rfl | rfl | rfl
    · exact does_nil h
    all_goals
      cases pl
      · have := does_root.1 h; simp at this
      · have := does_sub.1 h; simp at this
      · have := does_subsub.1 h; simp at this
  · rintro a rfl
    cases pl
    · have := does_root.1 h; simp at this
    · have := does_sub.1 h; simp at this
    · have := does_subsub.1 h; simp at this

theorem line_unique {s s1 s2 : Seat} {l t1 t2 : Str} (h1 : Line s l s1 t1) (h2 : Line s l s2 t2) : s1 = s2 ∧ t1 = t2 := by
  have no : ∀ {toks}, Lex.Line l toks → toks ∈ [[], [bs!"help"], [bs!"history"]] → ¬ Bang l := by
    rintro toks hl hm ⟨a, n, h, _⟩
    rw [line_same hl h] at hm
    simp at hm
  have nd : ∀ {toks r}, Lex.Line l toks → Does s.place toks r → ¬ Bang l := by
    rintro toks r hl hd ⟨a, n, h, _⟩
    exact (does_tokens hd).2 a (line_same hl h)
  have nl : ∀ {toks r}, Lex.Line l toks → Does s.place toks r → ∀ {u}, Lex.Line l u → u ∈ [[], [bs!"help"], [bs!"history"], [bs!"exit"]] → False := by
    intro toks r hl hd u hu hm
    cases line_same hl hu
    exact (does_tokens hd).1 hm
  have nw : ∀ {toks}, Lex.Line l toks → toks ∉ [[], [bs!"help"], [bs!"history"], [bs!"exit"]] → ∀ {u}, Lex.Line l u → u ∈ [[], [bs!"help"], [bs!"history"], [bs!"exit"]] → False := by
    intro toks hl hn u hu hm
    cases line_same hl hu
    exact hn hm
  cases h1 with
  | blank a =>
    cases h2 with
    | blank b => exact ⟨rfl, rfl⟩
    | help b => cases line_same a b
    | history b _ => cases line_same a b
    | missing b => exact absurd b (no a (by simp))
    | does b c => exact (nl b c a (by simp)).elim
    | wrong b c => exact (nw b c a (by simp)).elim
  | help a =>
    cases h2 with
    | blank b => cases line_same a b
    | help b => exact ⟨rfl, rfl⟩
    | history b _ => cases line_same a b
    | missing b => exact absurd b (no a (by simp))
    | does b c => exact (nl b c a (by simp)).elim
    | wrong b c => exact (nw b c a (by simp)).elim
  | history a e =>
    cases h2 with
    | blank b => cases line_same a b
    | help b => cases line_same a b
    | history b f => exact ⟨rfl, by rw [shows_unique e f]⟩
    | missing b => exact absurd b (no a (by simp))
    | does b c => exact (nl b c a (by simp)).elim
    | wrong b c => exact (nw b c a (by simp)).elim
  | missing a =>
    cases h2 with
    | blank b => exact absurd a (no b (by simp))
    | help b => exact absurd a (no b (by simp))
    | history b _ => exact absurd a (no b (by simp))
    | missing b => exact ⟨rfl, rfl⟩
    | does b c => exact absurd a (nd b c)
    | wrong b c d => exact absurd a d
  | does a e =>
    cases h2 with
    | blank b => exact (nl a e b (by simp)).elim
    | help b => exact (nl a e b (by simp)).elim
    | history b _ => exact (nl a e b (by simp)).elim
    | missing b => exact absurd b (nd a e)
    | does b c => cases line_same a b; cases does_unique e c; exact ⟨rfl, rfl⟩
    | wrong b c d f => cases line_same a b; exact absurd e (f _)
  | wrong a e g i =>
    cases h2 with
    | blank b => exact (nw a e b (by simp)).elim
    | help b => exact (nw a e b (by simp)).elim
    | history b _ => exact (nw a e b (by simp)).elim
    | missing b => exact absurd b g
    | does b c => cases line_same a b; exact absurd c (i _)
    | wrong b c d f => exact ⟨rfl, rfl⟩

/-- The description of the output is exact: there is one output at most. -/
theorem output_unique {s : Seat} {ls : List Str} {a b : Str} (h1 : Output s ls a) (h2 : Output s ls b) : a = b := by
  induction h1 generalizing b with
  | eof => cases h2; rfl
  | exit h =>
    cases h2 with
    | exit _ => rfl
    | line hn _ _ => exact absurd h hn
  | line hn hl _ ih =>
    cases h2 with
    | exit h => exact absurd h hn
    | line _ hl' ho =>
      obtain ⟨rfl, rfl⟩ := line_unique hl hl'
      rw [ih ho]

/-! ### C108 -/

theorem at_start (tty : Bool) : ∃ w, FileSession.create (app p) (.of input) true (cli tty) (cli tty).io = .ok w ∧ At (Seat.start tty) w ∧ w.io.out = [] := by
  refine ⟨_, rfl, ⟨rfl, fun _ => rfl, rfl, rfl, rfl, rfl, by cases tty <;> rfl, rfl, rfl, rfl, rfl, rfl⟩, rfl⟩

theorem session_says (p : Platform) (tty : Bool) (fuel n : Nat) {input rest : Str} {ls : List Str} (hd : Lines input ls rest) (hh : Harmless p input) (hn : ls.length + 1 ≤ n) :
    (¬ Doomed ls → ∃ o, session p tty (fuel + 1) n input = .ok (some (o, none)) ∧ Output (Seat.start tty) ls o) ∧
    (Doomed ls → session p tty (fuel + 1) n input = .error (.ub .outOfRange)) := by
  obtain ⟨w, e1, e2, e3⟩ := at_start (p := p) (input := input) tty
  have hen : ∃ w', enterSession (A p none) w = (w', none) ∧ At (Seat.start tty) w' ∧ w'.io.out = [] := by
    refine ⟨_, rfl, ?_, ?_⟩
    · exact ⟨e2.tree, e2.dis, e2.current, e2.exit, e2.app, e2.color, e2.escapes, e2.mode, e2.zero, e2.size, e2.buffer, e2.number⟩
    · exact e3
  obtain ⟨w', f1, f2, f3⟩ := hen
  obtain ⟨g1, g2⟩ := loop_says p fuel ls input rest hd hh n hn [] _ w' f2 (fun x hx => (by cases hx))
  have hs : session p tty (fuel + 1) n input = (match FileSession.loop (A p none) (fuel + 1) n (.of input) [] w' with
      | .error f => .error f
      | .ok none => .ok none
      | .ok (some E) => .ok (some (E.w.io.out, E.exn))) := by
    simp only [session, e1, FileSession.start]
    rw [show FileSession.fileApp (app p) none = A p none from rfl, f1]
    rfl
  rw [hs]
  constructor
  · intro hx
    obtain ⟨E, o, a1, a2, a3, a4⟩ := g1 (fun hy => hx hy.2)
    refine ⟨o, ?_, a3⟩
    rw [a1]
    simp [a2, a4, f3]
  · intro hx
    rw [g2 ⟨⟨rfl, rfl⟩, hx⟩]

/-- **C108** (partial) What the session writes is what the table of commands says, line by line, up to `exit` or the end of the input; a last line without newline is not read. Missing: input in which the first line that is not blank is
    `!` and a number (`C108_refuted_first`), and input that makes the conversion of the argument of `answer` undefined (`C108_refuted_minus`). -/
theorem C108_output_partial (p : Platform) (tty : Bool) (fuel n : Nat) {input rest : Str} {ls : List Str} (hd : Lines input ls rest) (hh : Harmless p input) (hn : ls.length + 1 ≤ n) (hx : ¬ Doomed ls) (o : Str) :
    session p tty (fuel + 1) n input = .ok (some (o, none)) ↔ Output (Seat.start tty) ls o := by
  obtain ⟨o', h1, h2⟩ := (session_says p tty fuel n hd hh hn).1 hx
  rw [h1]
  constructor
  · intro h; cases h; exact h2
  · intro h; rw [output_unique h h2]

/-- **C108** (partial) `filesession` with such an input file ends with code 0, having written this to the output file and nothing to `cerr`. -/
theorem C108_program_partial (p : Platform) (fuel n : Nat) {input rest : Str} {ls : List Str} (hd : Lines input ls rest) (hh : Harmless p input) (hn : ls.length + 1 ≤ n) (hx : ¬ Doomed ls) :
    ∃ o, main p (fuel + 1) n (some input) true = .ok (some ⟨0, [], some o⟩) ∧ Output (Seat.start false) ls o := by
  obtain ⟨o, h1, h2⟩ := (session_says p false fuel n hd hh hn).1 hx
  exact ⟨o, by simp [main, h1], h2⟩

/-- **C108** Every input has lines and a rest, so there is an output for it. -/
theorem C108_input (input : Str) : ∃ ls rest, Lines input ls rest := by
  obtain ⟨ls, rest, h⟩ := lines_total input
  exact ⟨ls, rest, h⟩

/-- **C108** Without input file, or if the output file cannot be opened, `filesession` says so on `cerr` and ends with code 1; no file is changed. -/
theorem C108_files (p : Platform) (fuel n : Nat) (input : Str) (writable : Bool) :
    main p fuel n none writable = .ok (some ⟨1, bs!"File input.txt not found in current directory!\n", none⟩) ∧
    main p fuel n (some input) false = .ok (some ⟨1, bs!"Can't write file output.txt in the current directory!\n", none⟩) := ⟨rfl, rfl⟩

/-- **C108** (refuted, in general) Whenever the first line that is not blank is `!` and a number the behaviour of both programs is undefined: the line is removed from the history, which has room for it alone, and then an element of the empty
    `deque` is read. -/
theorem C108_refuted_first (p : Platform) (tty : Bool) (fuel n : Nat) {input rest : Str} {ls : List Str} (hd : Lines input ls rest) (hh : Harmless p input) (hn : ls.length + 1 ≤ n) (hx : Doomed ls) :
    session p tty (fuel + 1) n input = .error (.ub .outOfRange) ∧ main p (fuel + 1) n (some input) true = .error (.ub .outOfRange) := by
  refine ⟨(session_says p tty fuel n hd hh hn).2 hx, ?_⟩
  simp [main, (session_says p false fuel n hd hh hn).2 hx]

/-- **C108** (refuted) The program has undefined behaviour on the line `! 0`; on `answer -5`, where overflow of `int` is undefined; and on `answer` with a character that is negative, for which `isdigit` is. -/
theorem C108_refuted_minus :
    main plat 2 5 (some bs!"! 0\n") true = .error (.ub .outOfRange) ∧
    main { plat with strictOverflow := true } 2 5 (some bs!"answer -5\n") true = .error (.ub .signedOverflow) ∧
    main { plat with charSigned := true } 2 5 (some (bs!"answer " ++ [200, b%'\n'])) true = .error (.ub .ctype) := ⟨rfl, rfl, rfl⟩

/-- The file `input.txt` of the repository. -/
def inputTxt : Str := bs!"help\nhello\nexit\n"

theorem harmless_of {d : Str} (h : d.all (fun c => plat.ctypeUB c == false) = true) : Harmless plat d := by
  intro c hc
  exact ⟨by simpa using List.all_eq_true.1 h c hc, .inl rfl⟩

theorem lines_of (ls : List Str) (h : ls.all (fun l => !l.contains b%'\n') = true) : Lines (ls.flatMap (fun l => l ++ [b%'\n'])) ls [] := by
  refine ⟨by simp, fun l hl => ?_, by simp⟩
  have := List.all_eq_true.1 h l hl
  simpa using this

example : Lines inputTxt [bs!"help", bs!"hello", bs!"exit"] [] ∧ Harmless plat inputTxt ∧ ¬ Doomed [bs!"help", bs!"hello", bs!"exit"] := by
  refine ⟨lines_of [bs!"help", bs!"hello", bs!"exit"] (by decide), harmless_of (by decide), ?_⟩
  have e : Lex.Line bs!"help" [bs!"help"] := (split_iff _ _).1 rfl
  rw [doomed_cons]
  rintro (⟨a, n, h, _⟩ | ⟨h, _⟩) <;> cases line_same e h

/-- What the program writes for the file of the repository. -/
example : (main plat 2 9 (some inputTxt) true).toOption = some (some ⟨0, [], some (bs!"cli> " ++
    bs!"Commands available:\n - help\n\tThis help message\n - exit\n\tQuit the session\n - history\n\tShow the history\n - ! <history entry index>\n\tExec a command by index in the history\n - hello\n\tPrint hello world\n - hello_everysession\n\tPrint hello everybody on all open sessions\n - answer <int>\n\tPrint the answer to Life, the Universe and Everything \n - color\n\tEnable colors in the cli\n - nocolor\n\tDisable colors in the cli\n - sub\n\t(menu)\n" ++
    bs!"cli> Hello, world\ncli> Goodbye and thanks for all the fish.\n")⟩) := by decide +kernel

/-- Menus, colours and the history; the last line has no newline. -/
example : (main plat 2 19 (some bs!"sub\nhello\n  .. answer 042\nsubsub\n..\nhistory\ncolor\n! 3\n\nnocolor\nbye\nhello") true).toOption = some (some ⟨0, [], some (
    bs!"cli> sub> Hello, submenu world\nsub> The answer is: 42\nsub> subsub> sub> \n5\thistory\n\nsub> wrong command: color\nsub> Index not found in history\nsub> sub> wrong command: nocolor\nsub> wrong command: bye\nsub> Goodbye and thanks for all the fish.\n")⟩) := by decide +kernel

example : (session plat false 2 19 bs!"color\nsub\nnocolor\n.. nocolor\nexit\nhello\n").toOption = some (some (
    bs!"cli> Colors ON\n\x1b[32m\x1b[1mcli\x1b[0m> \x1b[32m\x1b[1msub\x1b[0m> wrong command: nocolor\n\x1b[32m\x1b[1msub\x1b[0m> Colors OFF\nsub\x1b[0m> Goodbye and thanks for all the fish.\n", none)) := by decide +kernel

/-- The line that dooms the program can follow blank ones. -/
example : Doomed [[], bs!"  ", bs!"! 7", bs!"exit"] ∧ Lines bs!"\n  \n! 7\nexit\n" [[], bs!"  ", bs!"! 7", bs!"exit"] [] :=
  ⟨⟨[[], bs!"  "], bs!"! 7", [bs!"exit"], rfl, by
    intro b hb
    simp only [List.mem_cons, List.not_mem_nil, or_false] at hb
    rcases hb with rfl | rfl <;> exact (split_iff _ _).1 rfl, bs!"7", 7, (split_iff _ _).1 rfl, ⟨bs!"7", .inl rfl, ⟨by simp, by simp [Number.Digit]⟩, rfl⟩, by decide⟩,
    lines_of [[], bs!"  ", bs!"! 7", bs!"exit"] (by decide)⟩

end Verif.Script
