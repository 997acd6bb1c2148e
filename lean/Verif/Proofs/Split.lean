import Verif.Model.Split
import Verif.Spec.Lex

/-! Helper lemmas for the tokeniser. -/

namespace Verif.Split
open Verif.Lex

theorem isBlank_iff (c : Byte) : isBlank c = true ↔ blank c := by
  simp [isBlank, blank, or_assoc]

theorem isQuote_iff (c : Byte) : isQuote c = true ↔ quote c := by
  simp [isQuote, quote]

theorem appendBack_snoc (pre : List Str) (w s : Str) :
    appendBack (pre ++ [w]) s = .ok (pre ++ [w ++ s]) := by
  simp [appendBack]

theorem run_append (t : Text) (a b : Str) :
    t.run (a ++ b) = (t.run a).bind (fun t' => t'.run b) := by
  induction a generalizing t with
  | nil => rfl
  | cons c cs ih =>
    simp only [List.cons_append, Text.run, bind, Except.bind]
    cases t.eval c with
    | error e => rfl
    | ok t' => simp only [ih]; rfl

theorem run_cons (t : Text) (c : Byte) (cs : Str) :
    t.run (c :: cs) = (t.eval c).bind (fun t' => t'.run cs) := rfl

/-- An escape seen in state `escape`. -/
theorem eval_escape (p : State) (ty : SentenceType) (pre : List Str) (w : Str) (c : Byte) :
    (Text.mk .escape p ty (pre ++ [w])).eval c = .ok ⟨p, p, ty, pre ++ [w ++ escaped c]⟩ := by
  by_cases h : c = b%'"' ∨ c = b%'\'' ∨ c = b%'\\'
  · have h' : (c != b%'"' && c != b%'\'' && c != b%'\\') = false := by
      rcases h with h | h | h <;> subst h <;> decide
    simp [Text.eval, Text.evalEscape, h', bind, Except.bind, pure, Except.pure, appendBack_snoc, escaped, h]
  · have h' : (c != b%'"' && c != b%'\'' && c != b%'\\') = true := by
      simp only [not_or] at h; simp [h]
    simp [Text.eval, Text.evalEscape, h', bind, Except.bind, pure, Except.pure, appendBack_snoc, escaped, h]

theorem plain_none {c : Byte} (h : plain none c) :
    isBlank c = false ∧ isQuote c = false ∧ (c == b%'!') = false ∧ (c == b%'\\') = false := by
  obtain ⟨h1, h2, h3, h4⟩ := h
  rw [← isBlank_iff] at h1
  rw [← isQuote_iff] at h2
  simp_all

theorem run_word {body txt : Str} (h : Body none body txt) :
    ∀ (p : State) (ty : SentenceType) (pre : List Str) (w : Str),
      ∃ p', (Text.mk .word p ty (pre ++ [w])).run body = .ok ⟨.word, p', ty, pre ++ [w ++ txt]⟩ := by
  induction h with
  | nil => intro p ty pre w; exact ⟨p, by simp [Text.run]⟩
  | @char c src txt hc _ ih =>
    intro p ty pre w
    obtain ⟨h1, h2, h3, h4⟩ := plain_none hc
    obtain ⟨p', hp'⟩ := ih p ty pre (w ++ [c])
    refine ⟨p', ?_⟩
    rw [run_cons]
    have : (Text.mk .word p ty (pre ++ [w])).eval c = .ok ⟨.word, p, ty, pre ++ [w ++ [c]]⟩ := by
      simp [Text.eval, Text.evalWord, h1, h2, h3, h4, appendBack_snoc, bind, Except.bind, pure, Except.pure]
    rw [this]; simpa [Except.bind] using hp'
  | @esc c src txt _ ih =>
    intro p ty pre w
    obtain ⟨p', hp'⟩ := ih .word ty pre (w ++ escaped c)
    refine ⟨p', ?_⟩
    rw [run_cons]
    have : (Text.mk .word p ty (pre ++ [w])).eval b%'\\' = .ok ⟨.escape, .word, ty, pre ++ [w]⟩ := by
      simp [Text.eval, Text.evalWord, isBlank, isQuote]
    rw [this]
    simp only [Except.bind]
    rw [run_cons, eval_escape]
    simpa [Except.bind] using hp'

theorem run_word_start {body txt : Str} (h : Body none body txt) (hne : body ≠ [])
    (p : State) (ty : SentenceType) (pre : List Str) :
      ∃ p', (Text.mk .space p ty pre).run body = .ok ⟨.word, p', ty, pre ++ [txt]⟩ := by
  cases h with
  | nil => exact absurd rfl hne
  | @char c src txt hc hb =>
    obtain ⟨h1, h2, h3, h4⟩ := plain_none hc
    obtain ⟨p', hp'⟩ := run_word hb p ty pre [c]
    refine ⟨p', ?_⟩
    rw [run_cons]
    have : (Text.mk .space p ty pre).eval c = .ok ⟨.word, p, ty, pre ++ [[c]]⟩ := by
      simp [Text.eval, Text.evalSpace, h1, h2, h3, h4]
    rw [this]; simpa [Except.bind] using hp'
  | @esc c src txt hb =>
    obtain ⟨p', hp'⟩ := run_word hb .word ty pre (escaped c)
    refine ⟨p', ?_⟩
    rw [run_cons]
    have : (Text.mk .space p ty pre).eval b%'\\' = .ok ⟨.escape, .word, ty, pre ++ [[]]⟩ := by
      simp [Text.eval, Text.evalSpace, isBlank, isQuote]
    rw [this]
    simp only [Except.bind]
    rw [run_cons, eval_escape]
    simpa [Except.bind] using hp'

theorem sentenceType_ne {q c : Byte} (hq : quote q) (hc : quote c) (h : c ≠ q) :
    sentenceType c ≠ sentenceType q := by
  rcases hq with rfl | rfl <;> rcases hc with rfl | rfl <;> first | exact absurd rfl h | decide

theorem run_sentence {q : Byte} (hq : quote q) {body txt : Str} (h : Body (some q) body txt) :
    ∀ (p : State) (pre : List Str) (w : Str),
      ∃ p', (Text.mk .sentence p (sentenceType q) (pre ++ [w])).run body
        = .ok ⟨.sentence, p', sentenceType q, pre ++ [w ++ txt]⟩ := by
  induction h with
  | nil => intro p pre w; exact ⟨p, by simp [Text.run]⟩
  | @char c src txt hc _ ih =>
    intro p pre w
    obtain ⟨h1, h2⟩ := hc
    obtain ⟨p', hp'⟩ := ih p pre (w ++ [c])
    refine ⟨p', ?_⟩
    rw [run_cons]
    have : (Text.mk .sentence p (sentenceType q) (pre ++ [w])).eval c
        = .ok ⟨.sentence, p, sentenceType q, pre ++ [w ++ [c]]⟩ := by
      by_cases hcq : isQuote c = true
      · have := sentenceType_ne hq ((isQuote_iff c).1 hcq) h1
        simp [Text.eval, Text.evalSentence, hcq, this, appendBack_snoc, bind, Except.bind, pure, Except.pure]
      · simp [Text.eval, Text.evalSentence, hcq, h2, appendBack_snoc, bind, Except.bind, pure, Except.pure]
    rw [this]; simpa [Except.bind] using hp'
  | @esc c src txt _ ih =>
    intro p pre w
    obtain ⟨p', hp'⟩ := ih .sentence pre (w ++ escaped c)
    refine ⟨p', ?_⟩
    rw [run_cons]
    have : (Text.mk .sentence p (sentenceType q) (pre ++ [w])).eval b%'\\'
        = .ok ⟨.escape, .sentence, sentenceType q, pre ++ [w]⟩ := by
      simp [Text.eval, Text.evalSentence, isQuote]
    rw [this]
    simp only [Except.bind]
    rw [run_cons, eval_escape]
    simpa [Except.bind] using hp'

/-- A quote opens a sentence, from state `space`. -/
theorem eval_open {q : Byte} (hq : quote q) (p : State) (ty : SentenceType) (pre : List Str) :
    (Text.mk .space p ty pre).eval q = .ok ⟨.sentence, p, sentenceType q, pre ++ [[]]⟩ := by
  rcases hq with rfl | rfl <;> simp [Text.eval, Text.evalSpace, isBlank, isQuote, Text.newSentence]

theorem eval_close {q : Byte} (hq : quote q) (p : State) (pre : List Str) :
    (Text.mk .sentence p (sentenceType q) pre).eval q = .ok ⟨.space, p, sentenceType q, pre⟩ := by
  rcases hq with rfl | rfl <;> simp [Text.eval, Text.evalSentence, isQuote]

/-- Where a word may end, states `word` and `space` do the same. -/
theorem run_wordEnd {src : Str} (h : wordEnd src) (p : State) (ty : SentenceType) (v : List Str) :
    ((Text.mk .word p ty v).run src).map (·.splitResult)
      = ((Text.mk .space p ty v).run src).map (·.splitResult) := by
  cases src with
  | nil => rfl
  | cons c cs =>
    rw [run_cons, run_cons]
    have : (Text.mk .word p ty v).eval c = (Text.mk .space p ty v).eval c := by
      rcases h with (rfl | rfl | rfl) | (rfl | rfl) | rfl <;>
        simp [Text.eval, Text.evalSpace, Text.evalWord, isBlank, isQuote, Text.newSentence]
    rw [this]

/-- Result vector after reading `src` from a given state. -/
def results (t : Text) (src : Str) : Except Fault (List Str) :=
  (t.run src).map (fun t => removeEmptyEntries t.splitResult)

theorem removeEmpty_append (a b : List Str) :
    removeEmptyEntries (a ++ b) = removeEmptyEntries a ++ removeEmptyEntries b := by
  simp [removeEmptyEntries]

theorem removeEmpty_arg (t : Str) : removeEmptyEntries [t] = arg t := by
  cases t <;> simp [removeEmptyEntries, arg]

theorem results_wordEnd {src : Str} (h : wordEnd src) (p : State) (ty : SentenceType) (v : List Str) :
    results ⟨.word, p, ty, v⟩ src = results ⟨.space, p, ty, v⟩ src := by
  have := run_wordEnd h p ty v
  unfold results
  cases h1 : (Text.mk .word p ty v).run src <;> cases h2 : (Text.mk .space p ty v).run src <;>
    simp_all [Except.map]

theorem results_append {t : Text} {a b : Str} {t' : Text} (h : t.run a = .ok t') :
    results t (a ++ b) = results t' b := by
  simp [results, run_append, h, Except.bind]

theorem run_line {src : Str} {args : List Str} (h : Line src args) :
    ∀ (p : State) (ty : SentenceType) (v : List Str),
      results ⟨.space, p, ty, v⟩ src = .ok (removeEmptyEntries v ++ args) := by
  induction h with
  | nil => intro p ty v; simp [results, Text.run, Except.map]
  | @blank c src args hb _ ih =>
    intro p ty v
    have hs : (Text.mk .space p ty v).run [c] = .ok ⟨.space, p, ty, v⟩ := by
      rw [run_cons]
      simp [Text.eval, Text.evalSpace, (isBlank_iff c).2 hb, Except.bind, Text.run]
    rw [show c :: src = [c] ++ src from rfl, results_append hs, ih]
  | @bang src args _ ih =>
    intro p ty v
    have hs : (Text.mk .space p ty v).run [b%'!'] = .ok ⟨.space, p, ty, v ++ [[b%'!']]⟩ := by
      rw [run_cons]
      simp [Text.eval, Text.evalSpace, isBlank, isQuote, Except.bind, Text.run]
    rw [show b%'!' :: src = [b%'!'] ++ src from rfl, results_append hs, ih]
    simp [removeEmptyEntries]
  | @word body txt src args hb hne he _ ih =>
    intro p ty v
    obtain ⟨p', hp'⟩ := run_word_start hb hne p ty v
    rw [results_append hp', results_wordEnd he, ih, removeEmpty_append, removeEmpty_arg, List.append_assoc]
  | @wordCut body txt hb =>
    intro p ty v
    by_cases hne : body = []
    · subst hne
      cases hb
      simp [results, Text.run, Text.eval, Text.evalSpace, isBlank, isQuote, bind, Except.bind, Except.map,
        removeEmpty_append, removeEmpty_arg]
    · obtain ⟨p', hp'⟩ := run_word_start hb hne p ty v
      rw [results_append hp']
      simp [results, Text.run, Text.eval, Text.evalWord, isBlank, isQuote, bind, Except.bind, Except.map,
        removeEmpty_append, removeEmpty_arg]
  | @quoted q body txt src args hq hb _ ih =>
    intro p ty v
    obtain ⟨p', hp'⟩ := run_sentence hq hb p v []
    have hs : (Text.mk .space p ty v).run (q :: body ++ [q])
        = .ok ⟨.space, p', sentenceType q, v ++ [txt]⟩ := by
      rw [List.cons_append, run_cons, eval_open hq]
      simp only [Except.bind]
      rw [run_append, hp']
      simp only [Except.bind, List.nil_append]
      rw [run_cons, eval_close hq]
      simp [Except.bind, Text.run]
    rw [show q :: body ++ q :: src = (q :: body ++ [q]) ++ src by simp, results_append hs, ih,
      removeEmpty_append, removeEmpty_arg, List.append_assoc]
  | @unclosed q body txt hq hb =>
    intro p ty v
    obtain ⟨p', hp'⟩ := run_sentence hq hb p v []
    have hs : (Text.mk .space p ty v).run (q :: body)
        = .ok ⟨.sentence, p', sentenceType q, v ++ [txt]⟩ := by
      rw [run_cons, eval_open hq]
      simp only [Except.bind]
      simpa using hp'
    rw [results, hs]
    simp [Except.map, removeEmpty_append, removeEmpty_arg]
  | @unclosedCut q body txt hq hb =>
    intro p ty v
    obtain ⟨p', hp'⟩ := run_sentence hq hb p v []
    have hs : (Text.mk .space p ty v).run (q :: body)
        = .ok ⟨.sentence, p', sentenceType q, v ++ [txt]⟩ := by
      rw [run_cons, eval_open hq]
      simp only [Except.bind]
      simpa using hp'
    rw [results_append hs]
    simp [results, Text.run, Text.eval, Text.evalSentence, isQuote, bind, Except.bind, Except.map,
      removeEmpty_append, removeEmpty_arg]

theorem split_of_line {src : Str} {args : List Str} (h : Line src args) : split src = .ok args := by
  have := run_line h .space .double_quote []
  simp only [results, removeEmptyEntries, List.filter_nil, List.nil_append] at this
  unfold split
  revert this
  simp only [Text.reset, bind, Except.bind, pure, Except.pure, Except.map, removeEmptyEntries]
  intro this
  split at this
  · simp at this
  · simpa using this

/-! Every line is derivable in the grammar. -/

theorem body_max (q : Option Byte) (s : Str) :
    ∃ body txt rest, s = body ++ rest ∧ Body q body txt ∧
      (rest = [] ∨ rest = [b%'\\'] ∨ ∃ c r, rest = c :: r ∧ ¬ plain q c ∧ c ≠ b%'\\') := by
  induction hn : s.length using Nat.strongRecOn generalizing s with
  | ind n ih =>
    match s, hn with
    | [], _ => exact ⟨[], [], [], rfl, .nil, .inl rfl⟩
    | [c], hn =>
      by_cases hc : c = b%'\\'
      · subst hc; exact ⟨[], [], [_], rfl, .nil, .inr (.inl rfl)⟩
      · by_cases hp : plain q c
        · exact ⟨[c], [c], [], rfl, .char hp .nil, .inl rfl⟩
        · exact ⟨[], [], [c], rfl, .nil, .inr (.inr ⟨c, [], rfl, hp, hc⟩)⟩
    | c :: d :: s, hn =>
      by_cases hc : c = b%'\\'
      · subst hc
        obtain ⟨body, txt, rest, rfl, hb, hr⟩ := ih s.length (by simp at hn; omega) s rfl
        exact ⟨_, _, rest, rfl, .esc (c := d) hb, hr⟩
      · by_cases hp : plain q c
        · obtain ⟨body, txt, rest, he, hb, hr⟩ := ih (d :: s).length (by simp at hn ⊢; omega) (d :: s) rfl
          exact ⟨c :: body, c :: txt, rest, by rw [he]; rfl, .char hp hb, hr⟩
        · exact ⟨[], [], c :: d :: s, rfl, .nil, .inr (.inr ⟨c, _, rfl, hp, hc⟩)⟩

instance (c : Byte) : Decidable (blank c) := by unfold blank; infer_instance
instance (c : Byte) : Decidable (quote c) := by unfold quote; infer_instance

theorem line_total (s : Str) : ∃ args, Line s args := by
  induction hn : s.length using Nat.strongRecOn generalizing s with
  | ind n ih =>
    cases s with
    | nil => exact ⟨[], .nil⟩
    | cons c s =>
      simp only [List.length_cons] at hn
      by_cases hbl : blank c
      · obtain ⟨args, h⟩ := ih s.length (by omega) s rfl
        exact ⟨args, .blank hbl h⟩
      by_cases hbang : c = b%'!'
      · subst hbang
        obtain ⟨args, h⟩ := ih s.length (by omega) s rfl
        exact ⟨_, .bang h⟩
      by_cases hq : quote c
      · obtain ⟨body, txt, rest, rfl, hb, hr⟩ := body_max (some c) s
        rcases hr with rfl | rfl | ⟨d, r, rfl, hp, hd⟩
        · exact ⟨_, by simpa using Line.unclosed hq hb⟩
        · exact ⟨_, by simpa using Line.unclosedCut hq hb⟩
        · have : d = c := by
            simp only [plain, not_and, Classical.not_not] at hp
            exact Classical.byContradiction fun h => hd (hp h)
          subst this
          obtain ⟨args, h⟩ := ih r.length (by simp at hn; omega) r rfl
          exact ⟨_, Line.quoted hq hb h⟩
      · obtain ⟨body, txt, rest, he, hb, hr⟩ := body_max none (c :: s)
        have hne : rest = [b%'\\'] ∨ body ≠ [] := by
          rcases hr with rfl | rfl | ⟨d, r, rfl, hp, hd⟩
          · right; rintro rfl; simp at he
          · left; rfl
          · right
            rintro rfl
            simp only [List.nil_append, List.cons.injEq] at he
            obtain ⟨rfl, _⟩ := he
            exact hp ⟨hbl, hq, hbang, hd⟩
        rw [he]
        by_cases hcut : rest = [b%'\\']
        · subst hcut; exact ⟨_, .wordCut hb⟩
        · have hne' := hne.resolve_left hcut
          have hend : wordEnd rest := by
            rcases hr with rfl | rfl | ⟨d, r, rfl, hp, hd⟩
            · trivial
            · exact absurd rfl hcut
            · simp only [plain, not_and, Classical.not_not] at hp
              show blank d ∨ quote d ∨ d = b%'!'
              by_cases h1 : blank d
              · exact .inl h1
              · by_cases h2 : quote d
                · exact .inr (.inl h2)
                · by_cases h3 : d = b%'!'
                  · exact .inr (.inr h3)
                  · exact absurd (hp h1 h2 h3) hd
          have hl : rest.length < n := by
            have := congrArg List.length he
            have := List.length_pos_iff.2 hne'
            simp at *; omega
          obtain ⟨args, h⟩ := ih rest.length hl rest rfl
          exact ⟨_, .word hb hne' hend h⟩

end Verif.Split
