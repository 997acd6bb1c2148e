import Verif.Proofs.Split

/-!
# Properties C01–C03: the tokeniser
-/

namespace Verif.Props
open Verif.Split Verif.Lex

/-- **C02** The arguments the parser returns are exactly those the lexical grammar assigns to the line … -/
theorem C02_split_iff_grammar (src : Str) (args : List Str) :
    split src = .ok args ↔ Line src args := by
  constructor
  · intro h
    obtain ⟨args', h'⟩ := line_total src
    rw [split_of_line h'] at h
    injection h with h
    exact h ▸ h'
  · exact split_of_line

/-- **C02** … and the grammar assigns exactly one result to every line. -/
theorem C02_grammar_unique (src : Str) : ∃ args, Line src args ∧ ∀ args', Line src args' → args' = args := by
  obtain ⟨args, h⟩ := line_total src
  refine ⟨args, h, fun args' h' => ?_⟩
  have h1 := split_of_line h
  have h2 := split_of_line h'
  rw [h1] at h2
  injection h2 with h2
  exact h2.symm

/-- A line using every rule of the grammar. -/
example : split bs!" add!x\\a\"b c\\\"'\"  'd\\\\' '' e\\" =
    .ok [bs!"add", bs!"!", bs!"x\\a", bs!"b c\"'", bs!"d\\", bs!"e"] := by rfl

/-- **C03** The tokeniser never touches the result vector when it is empty (no fault), whatever the line. -/
theorem C03_split_total (src : Str) : ∃ args, split src = .ok args := by
  obtain ⟨args, h⟩ := line_total src
  exact ⟨args, split_of_line h⟩

/-- **C03** … and never delivers an empty argument. -/
theorem C03_no_empty_argument (src : Str) (args : List Str) (h : split src = .ok args) : [] ∉ args := by
  unfold split at h
  cases hr : Text.reset.run src with
  | error e => simp [hr, bind, Except.bind] at h
  | ok t =>
    simp [hr, bind, Except.bind, pure, Except.pure] at h
    subst h
    simp [removeEmptyEntries]

example : split bs!"'' \"\" a \\" = .ok [bs!"a"] := by rfl

theorem quoteBody (q : Byte) (hq : quote q) (a : Str) :
    Body (some q) (a.flatMap (fun c => if c = q ∨ c = b%'\\' then [b%'\\', c] else [c])) a := by
  induction a with
  | nil => exact .nil
  | cons c cs ih =>
    simp only [List.flatMap_cons]
    by_cases h : c = q ∨ c = b%'\\'
    · rw [if_pos h]
      have : escaped c = [c] := by
        rcases h with rfl | rfl
        · rcases hq with rfl | rfl <;> rfl
        · rfl
      have h' := Body.esc (c := c) ih
      rw [this] at h'
      simpa using h'
    · rw [if_neg h]
      simp only [not_or] at h
      exact .char h ih

theorem quoteArg_line (q : Byte) (hq : quote q) (a : Str) (ha : a ≠ []) {src args} (h : Line src args) :
    Line (quoteArg q a ++ src) (a :: args) := by
  have := Line.quoted hq (quoteBody q hq a) h
  simpa [quoteArg, arg, ha] using this

theorem blanks_line {bl : Str} (hbl : ∀ c ∈ bl, blank c) {src args} (h : Line src args) :
    Line (bl ++ src) args := by
  induction bl with
  | nil => exact h
  | cons c cs ih =>
    exact .blank (hbl c (by simp)) (ih fun d hd => hbl d (by simp [hd]))

/-- **C01** Quoting round-trip. Each argument (non-empty, any bytes) is written between quotes — double or single, chosen per
    argument — preceded by any blanks (even none); trailing blanks are allowed. Parsing gives exactly the arguments. -/
theorem C01_quoting_roundtrip (items : List (Str × Byte × Str)) (trail : Str)
    (hargs : ∀ bl q a, (bl, q, a) ∈ items → (∀ c ∈ bl, blank c) ∧ quote q ∧ a ≠ [])
    (htrail : ∀ c ∈ trail, blank c) :
    split (items.flatMap (fun (bl, q, a) => bl ++ quoteArg q a) ++ trail) =
      .ok (items.map (fun (_, _, a) => a)) := by
  rw [C02_split_iff_grammar]
  induction items with
  | nil => simpa using blanks_line htrail Line.nil
  | cons it items ih =>
    obtain ⟨bl, q, a⟩ := it
    obtain ⟨h1, h2, h3⟩ := hargs bl q a (by simp)
    have ih := ih (fun bl q a h => hargs bl q a (by simp [h]))
    have := blanks_line h1 (quoteArg_line q h2 a h3 ih)
    simpa using this

example : split (bs!"  " ++ quoteArg b%'"' bs!"a \"b\\" ++ (bs!"\t" ++ quoteArg b%'\'' bs!"!it's")) =
    .ok [bs!"a \"b\\", bs!"!it's"] := by rfl

end Verif.Props
