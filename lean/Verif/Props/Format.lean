import Verif.Model.Format
import Verif.Model.Terminal
import Verif.Props.Sample

set_option linter.unusedSimpArgs false

/-!
# Property C103: the formatting state of the stream
-/

namespace Verif.Props
open Format

variable {σ τ : Type}

/-- What the library means to write; `codes`: colour codes are written. -/
def plain (tty : Bool) : Bool → List Item → Str
  | _, [] => []
  | forced, .text t :: is => t ++ plain tty forced is
  | forced, .id n :: is => decimal n ++ plain tty forced is
  | forced, .sgr n :: is => (if forced || tty then 27 :: b%'[' :: decimal n ++ bs!"m" else []) ++ plain tty forced is
  | _, .force :: is => plain tty true is

/-- The state in which a stream begins: it can be written to, and numbers are written as decimals without a sign. -/
structure Neutral (f : Fmt) : Prop where
  good : f.good = true
  width : f.width = 0
  base : f.base = .dec
  showpos : f.showpos = false

theorem digits_decimal (u : Bool) (n : Nat) : digits u 10 n = decimal n := by
  induction n using Nat.strongRecOn with
  | ind n ih =>
    rw [digits, decimal]
    by_cases h : n < 10
    · rw [if_neg (by omega), if_pos h]
      have : n % 10 = n := Nat.mod_eq_of_lt h
      simp [digit, this, h]
    · rw [if_pos (by omega), if_neg h, ih (n / 10) (by omega)]
      have : n % 10 < 10 := Nat.mod_lt _ (by omega)
      simp [digit, this]

theorem pad_none {f : Fmt} (h : f.width = 0) (a b : Str) : pad f a b = a ++ b := by
  unfold pad
  cases f.adjust <;> simp [h]

theorem insert_plain {s : Stream} (hg : s.fmt.good = true) (hw : s.fmt.width = 0) (a b : Str) : Format.insert s a b = ⟨s.fmt, s.text ++ (a ++ b)⟩ := by
  obtain ⟨f, t⟩ := s
  simp only at hg hw
  simp only [Format.insert, hg, if_true, pad_none hw]
  congr 1
  obtain ⟨⟩ := f
  simp only at hw hg
  simp [hw, hg]

/-- What is forced after the items have been written. -/
def forcedBy (forced : Bool) (is : List Item) : Bool := forced || is.contains .force

theorem puts_neutral (is : List Item) : ∀ (s : Stream), Neutral s.fmt → puts s is = ⟨{ s.fmt with forced := forcedBy s.fmt.forced is }, s.text ++ plain s.fmt.tty s.fmt.forced is⟩ := by
  induction is with
  | nil => intro s _; simp [puts, forcedBy, plain]
  | cons i is ih =>
    intro s hn
    have e : puts s (i :: is) = puts (put s i) is := rfl
    rw [e]
    have ih' : ∀ t, puts ⟨s.fmt, t⟩ is = ⟨{ s.fmt with forced := forcedBy s.fmt.forced is }, t ++ plain s.fmt.tty s.fmt.forced is⟩ := fun t => ih ⟨s.fmt, t⟩ hn
    cases i with
    | text t =>
      rw [show put s (.text t) = ⟨s.fmt, s.text ++ ([] ++ t)⟩ from insert_plain hn.good hn.width [] t, ih' _]
      simp [plain, forcedBy, List.contains_cons]
    | id n =>
      have : put s (.id n) = ⟨s.fmt, s.text ++ ([] ++ decimal n)⟩ := by
        simp only [put, number, hn.base, Bool.and_false, Bool.false_eq_true, if_false, digits_decimal]
        exact insert_plain hn.good hn.width _ _
      rw [this, ih' _]
      simp [plain, forcedBy, List.contains_cons]
    | sgr n =>
      by_cases hc : (s.fmt.forced || s.fmt.tty) = true
      · have : put s (.sgr n) = ⟨s.fmt, s.text ++ (27 :: b%'[' :: decimal n ++ bs!"m")⟩ := by
          simp only [put, hc, if_true]
          rw [insert_plain hn.good hn.width]
          simp only [number, hn.base, hn.showpos, Bool.false_and, Bool.false_eq_true, if_false, digits_decimal]
          rw [insert_plain (s := ⟨s.fmt, s.text ++ ([] ++ [27, b%'['])⟩) hn.good hn.width]
          simp only
          rw [insert_plain (s := ⟨s.fmt, s.text ++ ([] ++ [27, b%'[']) ++ ([] ++ decimal n)⟩) hn.good hn.width]
          simp
        rw [this, ih' _]
        simp [plain, forcedBy, hc, List.contains_cons]
      · have : put s (.sgr n) = s := by simp only [put, hc, if_false]; rfl
        rw [this, ih s hn]
        simp [plain, forcedBy, hc, List.contains_cons]
    | force =>
      have : put s .force = { s with fmt := { s.fmt with forced := true } } := rfl
      rw [this, ih ⟨{ s.fmt with forced := true }, s.text⟩ ⟨hn.good, hn.width, hn.base, hn.showpos⟩]
      simp [plain, forcedBy, List.contains_cons]

/-- **C103** (part) As long as commands leave the stream as they have found it, what the library inserts appears as it is meant, and the stream remains in this state. So the other models, in which text is appended as it is, describe
    what happens. Missing: other states, see below. -/
theorem C103_neutral_partial (s : Stream) (hn : Neutral s.fmt) (is : List Item) : (puts s is).text = s.text ++ plain s.fmt.tty s.fmt.forced is ∧ Neutral (puts s is).fmt := by
  rw [puts_neutral is s hn]
  exact ⟨rfl, hn.good, hn.width, hn.base, hn.showpos⟩

/-- **C103** (part) In particular the prompt is the one of `Model/Session`. -/
theorem C103_prompt_partial (w w' : World σ τ) (h : prompt w = .ok w') (hx : w.exit = false) (s : Stream) (hn : Neutral s.fmt) (ht : s.text = w.io.out) (h1 : s.fmt.tty = w.io.style.tty) (h2 : s.fmt.forced = w.io.style.forced) :
    ∃ m rest, w.tree.locate w.current = some (m :: rest) ∧ (puts s (promptItems w.io.style.color m.1.prompt)).text = w'.io.out ∧ (puts s (promptItems w.io.style.color m.1.prompt)).fmt.forced = w'.io.style.forced := by
  unfold prompt at h
  rw [hx] at h
  simp only [Bool.false_eq_true, if_false] at h
  split at h
  · rename_i m kids rest hl
    cases h
    refine ⟨(m, kids), rest, hl, ?_⟩
    rw [puts_neutral _ s hn, ht, h1, h2]
    cases hc : w.io.style.color <;> cases hf : w.io.style.forced <;> cases hy : w.io.style.tty <;>
      simp [promptItems, plain, forcedBy, Io.beforePrompt, Io.afterPrompt, Io.sgr, Io.force, Io.put, hc, hf, hy, List.contains_cons]
  · cases h

/-- The entries that `history` lists: identifier and command, the oldest one first. -/
def listed (h : History.History) : Option (List (Nat × Str)) :=
  (List.range h.buffer.length).mapM (fun i => do
    let id ← History.indexToId h (h.buffer.length - 1 - i)
    let cmd ← h.buffer[h.buffer.length - 1 - i]?
    return (id, cmd))

theorem plain_history (tty forced : Bool) (l : List (Nat × Str)) : plain tty forced (historyItems l) = bs!"\n" ++ l.flatMap (fun e => decimal e.1 ++ bs!"\t" ++ e.2 ++ bs!"\n") ++ bs!"\n" := by
  have : ∀ l : List (Nat × Str), plain tty forced (l.flatMap (fun e => [Item.id e.1, .text bs!"\t", .text e.2, .text bs!"\n"]) ++ [.text bs!"\n"]) = l.flatMap (fun e => decimal e.1 ++ bs!"\t" ++ e.2 ++ bs!"\n") ++ bs!"\n" := by
    intro l
    induction l with
    | nil => simp [plain]
    | cons e l ih => simp only [List.flatMap_cons, List.cons_append, List.nil_append, plain, List.append_assoc] at ih ⊢; rw [ih]
  simp only [historyItems, List.cons_append, List.nil_append, plain, this]

theorem mapM_flatMap {α β : Type} (f : α → Option β) (g : β → Str) (l : List α) : (l.mapM (fun a => (f a).map g)) = (l.mapM f).map (List.map g) := by
  induction l with
  | nil => rfl
  | cons a l ih =>
    simp only [List.mapM_cons, ih]
    cases f a with
    | none => rfl
    | some b => cases l.mapM f <;> rfl

/-- **C103** (part) And so is the list of the history. -/
theorem C103_history_partial (h : History.History) (t : Str) (ht : History.show h = some t) (s : Stream) (hn : Neutral s.fmt) : ∃ l, listed h = some l ∧ (puts s (historyItems l)).text = s.text ++ t := by
  have e : History.show h = (listed h).map (fun l => bs!"\n" ++ l.flatMap (fun e => decimal e.1 ++ bs!"\t" ++ e.2 ++ bs!"\n") ++ bs!"\n") := by
    have e1 : (List.range h.buffer.length).mapM (fun i => do
        let id ← History.indexToId h (h.buffer.length - 1 - i)
        let cmd ← h.buffer[h.buffer.length - 1 - i]?
        return decimal id ++ [b%'\t'] ++ cmd ++ [b%'\n']) = (listed h).map (List.map (fun e => decimal e.1 ++ bs!"\t" ++ e.2 ++ bs!"\n")) := by
      rw [listed, ← mapM_flatMap]
      congr 1
      funext i
      cases History.indexToId h (h.buffer.length - 1 - i) with
      | none => rfl
      | some id => cases h.buffer[h.buffer.length - 1 - i]? <;> rfl
    unfold History.show
    simp only
    rw [e1]
    cases listed h with
    | none => rfl
    | some l => simp [List.flatMap_def]
  rw [e] at ht
  cases hl : listed h with
  | none => rw [hl] at ht; cases ht
  | some l =>
    rw [hl] at ht
    cases ht
    refine ⟨l, rfl, ?_⟩
    rw [(C103_neutral_partial s hn _).1, plain_history]

/-- **C103** (part) Texts (messages, help, the echo of keys without colours) do not depend on how numbers are written, so that they appear as they are meant in every stream that can be written to, if no width has been left to it. -/
theorem C103_text_partial (is : List Item) : ∀ (s : Stream), s.fmt.good = true → s.fmt.width = 0 → (∀ i ∈ is, ∃ t, i = .text t) → puts s is = ⟨s.fmt, s.text ++ plain s.fmt.tty s.fmt.forced is⟩ := by
  induction is with
  | nil => intro s _ _ _; simp [puts, plain]
  | cons i is ih =>
    intro s hg hw hi
    obtain ⟨t, rfl⟩ := hi i (by simp)
    have e : puts s (.text t :: is) = puts (put s (.text t)) is := rfl
    rw [e, show put s (.text t) = ⟨s.fmt, s.text ++ ([] ++ t)⟩ from insert_plain hg hw [] t, ih ⟨s.fmt, s.text ++ ([] ++ t)⟩ hg hw (fun i h => hi i (by simp [h]))]
    simp [plain]

/-- **C103** (part) So does the prompt in a session without colours (none have been switched on since the session began, and it is not on a terminal). -/
theorem C103_colourless_partial (s : Stream) (hg : s.fmt.good = true) (hw : s.fmt.width = 0) (hf : s.fmt.forced = false) (ht : s.fmt.tty = false) (p : Str) : puts s (promptItems false p) = ⟨s.fmt, s.text ++ (p ++ bs!"> ")⟩ := by
  have e1 : puts s (promptItems false p) = puts s [.text p, .text bs!"> "] := by
    simp only [promptItems, Bool.false_eq_true, if_false, List.nil_append, puts, List.foldl_cons, List.foldl_nil]
    rw [show put s (.text p) = ⟨s.fmt, s.text ++ ([] ++ p)⟩ from insert_plain hg hw [] p]
    simp [put, hf, ht]
  rw [e1, C103_text_partial _ s hg hw (by simp)]
  simp [plain]

/-- **C103** With colours, the prompt is as it is meant exactly if numbers are written as decimals without a sign. -/
theorem C103_prompt_iff (s : Stream) (hg : s.fmt.good = true) (hw : s.fmt.width = 0) (p : Str) :
    (puts s (promptItems true p)).text = s.text ++ plain s.fmt.tty s.fmt.forced (promptItems true p) ↔ s.fmt.base = .dec ∧ s.fmt.showpos = false := by
  constructor
  · intro h
    obtain ⟨f, t⟩ := s
    obtain ⟨g, w, fl, ad, b, sp, sb, up, ty, fo⟩ := f
    simp only at hg hw ⊢
    subst hg hw
    have d8 : ∀ u, digits u 8 32 = bs!"40" := by intro u; cases u <;> (rw [digits]; simp [digits, digit])
    have d16 : ∀ u, digits u 16 32 = bs!"20" := by intro u; cases u <;> (rw [digits]; simp [digits, digit])
    have d10 : decimal 32 = bs!"32" := by rw [← digits_decimal false]; rw [digits]; simp [digits, digit]
    cases b with
    | dec =>
      refine ⟨rfl, ?_⟩
      cases sp with
      | false => rfl
      | true =>
        simp [promptItems, puts, put, Format.insert, pad_none, number, plain, d10, digits_decimal] at h
    | oct =>
      exfalso
      cases sb <;> simp [promptItems, puts, put, Format.insert, pad_none, number, plain, d10, d8] at h
    | hex =>
      exfalso
      cases sb <;> cases up <;> simp [promptItems, puts, put, Format.insert, pad_none, number, plain, d10, d16] at h
  · rintro ⟨h1, h2⟩
    exact (C103_neutral_partial s ⟨hg, hw, h1, h2⟩ _).1

/-- **C103** (part) And so is the echo of a key of `Model/Terminal`. -/
theorem C103_echo_partial (t : Terminal.Term) (io : Io) (c : Byte) (hc : c ≠ b%'\t') (r : Terminal.Term × Io × Terminal.Symbol) (h : Terminal.keypressed t io (.ascii c) = .ok r)
    (s : Stream) (hn : Neutral s.fmt) (ht : s.text = io.out) (h1 : s.fmt.tty = io.style.tty) (h2 : s.fmt.forced = io.style.forced) :
    (puts s (echoItems io.style.color c (t.line.drop t.pos))).text = r.2.1.out ∧ (puts s (echoItems io.style.color c (t.line.drop t.pos))).fmt.forced = r.2.1.style.forced := by
  by_cases hp : t.pos ≤ t.line.length
  · simp only [Terminal.keypressed, hc, if_false, Terminal.suffix, Terminal.repSub, Terminal.insertAt, hp, if_true, bind, Except.bind] at h
    cases h
    rw [puts_neutral _ s hn, ht, h1, h2]
    cases hk : io.style.color <;> cases hf : io.style.forced <;> cases hy : io.style.tty <;>
      simp [echoItems, plain, forcedBy, Io.beforeInput, Io.afterInput, Io.sgr, Io.force, Io.put, hk, hf, hy, List.contains_cons, Terminal.rep, Terminal.bs]
  · simp only [Terminal.keypressed, hc, if_false, Terminal.suffix, hp, bind, Except.bind] at h
    cases h

/-- **C103** (part) And the message for a wrong command. -/
theorem C103_wrong_partial (A : App σ τ) (ha : A.onWrong = none) (line : Str) (w : World σ τ) (s : Stream) (hn : Neutral s.fmt) (ht : s.text = w.io.out) :
    (puts s (wrongItems line)).text = (wrongCommand A line w).1.io.out := by
  rw [puts_neutral _ s hn, ht]
  simp [wrongItems, plain, wrongCommand, ha, World.put, World.note, Io.put]

/-! ### Numbers -/

/-- The value of a digit. -/
def digitVal (c : Byte) : Nat := if c.toNat < 58 then c.toNat - 48 else if c.toNat < 71 then c.toNat - 55 else c.toNat - 87

/-- The value of a numeral. -/
def numeral (base : Nat) (t : Str) : Nat := t.foldl (fun v c => v * base + digitVal c) 0

/-- The value of a numeral with the prefixes of C: `0x` and `0X` for hexadecimal, `0` for octal numbers. -/
def literal (t : Str) : Nat :=
  match t with
  | 48 :: 120 :: r => numeral 16 r
  | 48 :: 88 :: r => numeral 16 r
  | 48 :: r => numeral 8 r
  | 43 :: r => numeral 10 r
  | r => numeral 10 r

/-- A digit, with letters of the case given. -/
def isDigitOf (uppercase : Bool) (base : Nat) (c : Byte) : Prop :=
  (48 ≤ c.toNat ∧ c.toNat < 58 ∨ (if uppercase then 65 ≤ c.toNat ∧ c.toNat < 71 else 97 ≤ c.toNat ∧ c.toNat < 103)) ∧ digitVal c < base

theorem digit_val (u : Bool) (d : Nat) (h : d < 16) : digitVal (digit u d) = d ∧ ∀ b, d < b → isDigitOf u b (digit u d) := by
  have : ∀ n, n < 256 → (UInt8.ofNat n).toNat = n := fun n hn => by simp; omega
  by_cases h10 : d < 10
  · have e : (digit u d).toNat = 48 + d := by simp only [digit, h10, if_true]; exact this _ (by omega)
    have v : digitVal (digit u d) = d := by unfold digitVal; rw [e, if_pos (by omega)]; omega
    exact ⟨v, fun b hb => ⟨.inl (by omega), by omega⟩⟩
  · cases u
    · have e : (digit false d).toNat = 87 + d := by simp only [digit, h10, if_false, Bool.false_eq_true]; exact this _ (by omega)
      have v : digitVal (digit false d) = d := by unfold digitVal; rw [e, if_neg (by omega), if_neg (by omega)]; omega
      exact ⟨v, fun b hb => ⟨.inr (by simp only [Bool.false_eq_true, if_false]; omega), by omega⟩⟩
    · have e : (digit true d).toNat = 55 + d := by simp only [digit, h10, if_false, if_true]; exact this _ (by omega)
      have v : digitVal (digit true d) = d := by unfold digitVal; rw [e, if_neg (by omega), if_pos (by omega)]; omega
      exact ⟨v, fun b hb => ⟨.inr (by simp only [if_true]; omega), by omega⟩⟩

/-- Numbers are written correctly in every base: the digits are digits of the base, without a leading zero, letters have the case demanded, and the value is the number. -/
theorem C103_digits (u : Bool) (base : Nat) (h2 : 2 ≤ base) (h16 : base ≤ 16) (n : Nat) :
    numeral base (digits u base n) = n ∧ (∀ c ∈ digits u base n, isDigitOf u base c) ∧ (n ≠ 0 → (digits u base n).head? ≠ some 48) ∧ (n = 0 → digits u base n = bs!"0") := by
  induction n using Nat.strongRecOn with
  | ind n ih =>
    have hm : n % base < base := Nat.mod_lt _ (by omega)
    obtain ⟨v, hd⟩ := digit_val u (n % base) (by omega)
    have hz : n % base ≠ 0 → digit u (n % base) ≠ 48 := fun hne h => hne (by rw [← v, h]; rfl)
    rw [digits]
    by_cases h : base ≤ n
    · obtain ⟨i1, i2, i3, _⟩ := ih (n / base) (Nat.div_lt_self (by omega) (by omega))
      have hq : n / base ≠ 0 := by
        have := Nat.div_pos h (by omega)
        omega
      rw [if_pos ⟨h2, h⟩]
      refine ⟨?_, ?_, ?_, fun h0 => by omega⟩
      · unfold numeral at i1 ⊢
        rw [List.foldl_append, i1]
        simp only [List.foldl_cons, List.foldl_nil, v]
        rw [Nat.mul_comm]
        exact Nat.div_add_mod n base
      · intro c hc
        rcases List.mem_append.1 hc with hc | hc
        · exact i2 c hc
        · rw [List.mem_singleton.1 hc]
          exact hd base hm
      · intro _
        rw [List.head?_append]
        cases e : (digits u base (n / base)).head? with
        | some c =>
          show some c ≠ some 48
          have := i3 hq
          rw [e] at this
          exact this
        | none =>
          have := i1
          rw [List.head?_eq_none_iff.1 e] at this
          exact absurd this.symm hq
    · rw [if_neg (fun hh => h hh.2)]
      have e : n % base = n := Nat.mod_eq_of_lt (by omega)
      rw [e] at v hd hz ⊢
      refine ⟨by simp [numeral, v], fun c hc => ?_, fun h0 hh => hz h0 (by simpa using hh), fun h0 => by subst h0; rfl⟩
      rw [List.mem_singleton.1 hc]
      exact hd base (by omega)

/-- If bases are shown, what is written has the value of the number, read with the rules of C. -/
theorem C103_literal (f : Fmt) (hs : f.showbase = true) (signed : Bool) (n : Nat) : literal ((number f signed n).1 ++ (number f signed n).2) = n := by
  have tail : ∀ u, 2 ≤ 10 → literal (digits u 10 n) = n := by
    intro u _
    obtain ⟨a, b, c, d⟩ := C103_digits u 10 (by omega) (by omega) n
    by_cases h0 : n = 0
    · rw [d h0, h0]; rfl
    · have hh := c h0
      cases e : digits u 10 n with
      | nil => rw [e] at a; rw [← a]; rfl
      | cons x r =>
        rw [e] at hh a b
        have hx : x ≠ 48 := fun h => hh (by rw [h]; rfl)
        have hx2 : x ≠ 43 := fun h => by
          have := (b x (by simp)).1
          rw [h] at this
          cases u <;> simp at this
        unfold literal
        split <;> simp_all
  cases hb : f.base with
  | dec =>
    simp only [number, hb]
    by_cases h : (f.showpos && signed) = true
    · rw [if_pos h]
      exact (C103_digits f.uppercase 10 (by omega) (by omega) n).1
    · rw [if_neg h]
      exact tail _ (by omega)
  | oct =>
    simp only [number, hb, hs, Bool.true_and, List.nil_append]
    obtain ⟨a, b, c, d⟩ := C103_digits f.uppercase 8 (by omega) (by omega) n
    by_cases h0 : n = 0
    · subst h0
      rw [d rfl]
      rfl
    · simp only [h0, bne_iff_ne, ne_eq, not_false_eq_true, if_true]
      cases e : digits f.uppercase 8 n with
      | nil => rw [e] at a; rw [← a]; rfl
      | cons x r =>
        have hx := (b x (by rw [e]; simp)).1
        have h1 : x ≠ 120 := fun h => by rw [h] at hx; revert hx; cases f.uppercase <;> decide
        have h2 : x ≠ 88 := fun h => by rw [h] at hx; revert hx; cases f.uppercase <;> decide
        show literal (48 :: x :: r) = n
        have : literal (48 :: x :: r) = numeral 8 (x :: r) := by
          unfold literal
          split <;> simp_all
        rw [this, ← e, a]
  | hex =>
    simp only [number, hb, hs, Bool.true_and]
    obtain ⟨a, b, c, d⟩ := C103_digits f.uppercase 16 (by omega) (by omega) n
    by_cases h0 : n = 0
    · subst h0
      rw [d rfl]
      rfl
    · simp only [h0, bne_iff_ne, ne_eq, not_false_eq_true, if_true]
      cases hu : f.uppercase <;> (rw [hu] at a; exact a)

/-- If bases are not shown, nothing is written before the digits, except the sign if it is demanded (`showpos`; decimal, and of a signed type). -/
theorem C103_prefix (f : Fmt) (hs : f.showbase = false) (signed : Bool) (n : Nat) :
    (number f signed n).2 = digits f.uppercase (match f.base with | .dec => 10 | .oct => 8 | .hex => 16) n ∧
    (number f signed n).1 = if f.base = .dec ∧ f.showpos = true ∧ signed = true then bs!"+" else [] := by
  cases hb : f.base <;> cases hp : f.showpos <;> cases signed <;> simp [number, hb, hs, hp]

/-- What is written before the digits if bases are shown, and that the sign of the type matters for decimal numbers only. -/
theorem C103_shown (f : Fmt) (hs : f.showbase = true) (signed : Bool) (n : Nat) :
    (number f signed n).1 =
      (match f.base with
       | .dec => if f.showpos = true ∧ signed = true then bs!"+" else []
       | .oct => []
       | .hex => if n = 0 then [] else if f.uppercase = true then bs!"0X" else bs!"0x") ∧
    (number f signed n).2 =
      (match f.base with
       | .dec => digits f.uppercase 10 n
       | .oct => if n = 0 then [48] else 48 :: digits f.uppercase 8 n
       | .hex => digits f.uppercase 16 n) ∧
    (f.base ≠ .dec → number f signed n = number f false n) := by
  cases hb : f.base <;> simp [number, hb, hs]
  by_cases h : n = 0
  · subst h; simp; rw [digits]; simp; cases f.uppercase <;> rfl
  · simp [h]

/-! ### Padding -/

/-- What is inserted is padded to the width and no further; the padding is before it, after it, or between prefix and digits; the rest is unchanged. -/
theorem C103_pad (f : Fmt) (a b : Str) :
    (pad f a b).length = max f.width (a.length + b.length) ∧
    (f.adjust = .left → ∃ k, pad f a b = (a ++ b) ++ List.replicate k f.fill) ∧
    (f.adjust = .right → ∃ k, pad f a b = List.replicate k f.fill ++ (a ++ b)) ∧
    (f.adjust = .internal → ∃ k, pad f a b = a ++ List.replicate k f.fill ++ b) := by
  refine ⟨?_, (fun h => ⟨_, by simp only [pad, h]; rfl⟩), (fun h => ⟨_, by simp only [pad, h, List.append_assoc]; rfl⟩), (fun h => ⟨_, by simp only [pad, h]; rfl⟩)⟩
  unfold pad
  cases f.adjust <;> simp <;> omega

/-- A width that a command has left concerns the first text written after it only. -/
theorem C103_once (s : Stream) (hg : s.fmt.good = true) (hb : s.fmt.base = .dec) (hp : s.fmt.showpos = false) (t : Str) (is : List Item) :
    (puts s (.text t :: is)).text = s.text ++ pad s.fmt [] t ++ plain s.fmt.tty s.fmt.forced is := by
  have e : puts s (.text t :: is) = puts ⟨{ s.fmt with width := 0 }, s.text ++ pad s.fmt [] t⟩ is := by
    show puts (Format.insert s [] t) is = _
    simp only [Format.insert, hg, if_true]
  rw [e]
  exact (C103_neutral_partial ⟨{ s.fmt with width := 0 }, s.text ++ pad s.fmt [] t⟩ ⟨hg, rfl, hb, hp⟩ is).1

/-! ### Refutations -/

/-- **C103 refuted** If a command leaves the stream failed, nothing that the library writes appears any more: no prompt, no echo, no message. -/
theorem C103_failed_refuted (s : Stream) (hg : s.fmt.good = false) (is : List Item) : (puts s is).text = s.text ∧ (puts s is).fmt.good = false := by
  induction is generalizing s with
  | nil => exact ⟨rfl, hg⟩
  | cons i is ih =>
    have : (put s i).text = s.text ∧ (put s i).fmt.good = false := by
      cases i with
      | text t => simp [put, Format.insert, hg]
      | id n => simp [put, Format.insert, hg]
      | sgr n => simp only [put]; split <;> simp [Format.insert, hg]
      | force => exact ⟨rfl, hg⟩
    have h2 := ih (put s i) this.2
    exact ⟨h2.1.trans this.1, h2.2⟩

/-- **C103 refuted** If a command leaves a width, the next thing written is padded: the prompt, in a session without colours. -/
theorem C103_width_refuted (s : Stream) (hg : s.fmt.good = true) (hf : s.fmt.forced = false) (ht : s.fmt.tty = false) (ha : s.fmt.adjust = .right) (p : Str) (k : Nat) (hw : s.fmt.width = p.length + k) :
    (puts s (promptItems false p)).text = s.text ++ List.replicate k s.fmt.fill ++ p ++ bs!"> " := by
  have hk : p.length + k - p.length = k := by omega
  simp [promptItems, puts, put, Format.insert, pad, hg, hf, ht, ha, hw, hk]

/-- **C103 refuted** If a command leaves the stream in hexadecimal mode, `history` lists command 16 as number 10, just as it lists command 10 otherwise; `! 10` executes the latter (C25). -/
theorem C103_history_refuted (s s0 : Stream) (hg : s.fmt.good = true) (hw : s.fmt.width = 0) (hb : s.fmt.base = .hex) (hs : s.fmt.showbase = false) (hn : Neutral s0.fmt) (h0 : s0.text = s.text) (c : Str) :
    (puts s (historyItems [(16, c)])).text = (puts s0 (historyItems [(10, c)])).text := by
  rw [(C103_neutral_partial s0 hn _).1, plain_history, h0]
  have d16 : ∀ u, digits u 16 16 = bs!"10" := by intro u; cases u <;> (rw [digits]; simp [digits, digit])
  have d10 : decimal 10 = bs!"10" := by rw [← digits_decimal false]; rw [digits]; simp [digits, digit]
  obtain ⟨f, t⟩ := s
  obtain ⟨g, w, fl, ad, b, sp, sb, up, ty, fo⟩ := f
  simp only at hg hw hb hs
  subst hg hw hb hs
  simp [historyItems, puts, put, Format.insert, pad_none, number, d16, d10]

/-! ### Concrete cases -/

def fmt0 : Fmt := ⟨true, 0, b%' ', .right, .dec, false, false, false, false, false⟩

example : Neutral fmt0 := ⟨rfl, rfl, rfl, rfl⟩
example : (puts ⟨fmt0, []⟩ (promptItems true bs!"cli")).text = bs!"\x1b[32m\x1b[1mcli\x1b[0m> " := by rw [puts_neutral _ _ ⟨rfl, rfl, rfl, rfl⟩]; simp [fmt0, promptItems, plain, decimal]
example : (puts ⟨{ fmt0 with width := 10, fill := b%'.' }, []⟩ (promptItems false bs!"cli")).text = bs!".......cli> " := by
  simpa [fmt0] using C103_width_refuted ⟨{ fmt0 with width := 10, fill := b%'.' }, []⟩ rfl rfl rfl rfl bs!"cli" 7 rfl
example : digits true 16 48879 = bs!"BEEF" ∧ numeral 16 bs!"beef" = 48879 ∧ literal bs!"0xbeef" = 48879 ∧ literal bs!"017" = 15 := by
  refine ⟨?_, by decide +kernel, by decide +kernel, by decide +kernel⟩
  rw [digits, digits, digits, digits]
  simp [digit]
example : pad { fmt0 with width := 6, fill := b%'*', adjust := .internal } bs!"0x" bs!"1f" = bs!"0x**1f" := by decide +kernel
example : (History.show (History.insert (History.insert (History.init 5) bs!"a") bs!"b")).isSome = true := by decide +kernel

end Verif.Props
