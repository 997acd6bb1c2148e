import Verif.Proofs.Showcase
import Verif.Props.Script

set_option linter.unusedSimpArgs false

/-!
# C113: the commands of the program `complete`
-/

namespace Verif.Showcase
open Spec Props
open FromString (Value)
open Script (Harmless harmless_fine line_same)

variable {τ : Type}

/-! ### The table is unambiguous -/

theorem isInt_same {a : Str} {i j : Int} (h1 : IsInt a i) (h2 : IsInt a j) : i = j := Script.spells_same h1.1 h2.1
theorem shows_same {s t : Str} {i : Int} (h1 : Shows s i) (h2 : Shows t i) : s = t := Script.shows_unique h1 h2

theorem isValue_same {E : Env} {k : Nat} {a : Str} {v u : Nat} (h1 : IsValue E k a v) (h2 : IsValue E k a u) : v = u := by
  obtain ⟨n, h1, _⟩ := h1
  obtain ⟨m, h2, _⟩ := h2
  rw [h1] at h2; cases h2; rfl

theorem dictionary_antisymm {s t : Str} (h1 : Dictionary s t) (h2 : Dictionary t s) : s = t := by
  replace h1 := (Plugged.before_iff s t).2 h1
  replace h2 := (Plugged.before_iff t s).2 h2
  induction s generalizing t with
  | nil => cases t with | nil => rfl | cons => simp [Plugins.before] at h2
  | cons a s ih =>
    cases t with
    | nil => simp [Plugins.before] at h1
    | cons b t =>
      simp only [Plugins.before, Bool.or_eq_true, decide_eq_true_eq, Bool.and_eq_true, beq_iff_eq] at h1 h2
      rcases h1 with h1 | ⟨rfl, h1⟩
      · rcases h2 with h2 | ⟨rfl, h2⟩
        · exact absurd (UInt8.lt_trans h1 h2) (UInt8.lt_irrefl _)
        · exact absurd h1 (UInt8.lt_irrefl _)
      · rcases h2 with h2 | ⟨_, h2⟩
        · exact absurd h2 (UInt8.lt_irrefl _)
        · rw [ih h1 h2]

/-- A row says at most one thing. -/
def Single (does : List Str → Reply → Prop) : Prop := ∀ a r r', does a r → does a r' → r = r'

theorem single_plain (r : Reply) : Single (plain r) := fun _ _ _ h1 h2 => h1.2.trans h2.2.symm

theorem single_numeric (f : Str → Str) : Single (numeric f) := by
  rintro _ _ _ ⟨a, i, d, rfl, h1, h2, rfl⟩ ⟨a', i', d', e, h3, h4, rfl⟩
  cases e
  cases isInt_same h1 h3
  rw [shows_same h2 h4]

theorem single_sum2 : Single sum2 := by
  rintro _ _ _ ⟨a, b, i, j, rfl, h1, h2, h⟩ ⟨a', b', i', j', e, h3, h4, h'⟩
  cases e
  cases isInt_same h1 h3
  cases isInt_same h2 h4
  rcases h with ⟨hs, d, e, s, g1, g2, g3, rfl⟩ | ⟨hs, rfl⟩ <;> rcases h' with ⟨hs', d', e', s', g1', g2', g3', rfl⟩ | ⟨hs', rfl⟩
  · rw [shows_same g1 g1', shows_same g2 g2', shows_same g3 g3']
  · exact absurd hs hs'
  · exact absurd hs' hs
  · rfl

theorem single_sum3 : Single sum3 := by
  rintro _ _ _ ⟨a, b, c, i, j, k, rfl, h1, h2, h5, h⟩ ⟨a', b', c', i', j', k', e, h3, h4, h6, h'⟩
  cases e
  cases isInt_same h1 h3
  cases isInt_same h2 h4
  cases isInt_same h5 h6
  rcases h with ⟨hs, ht, d, e, f, s, g1, g2, g3, g4, rfl⟩ | ⟨hs, rfl⟩ <;> rcases h' with ⟨hs', ht', d', e', f', s', g1', g2', g3', g4', rfl⟩ | ⟨hs', rfl⟩
  · rw [shows_same g1 g1', shows_same g2 g2', shows_same g3 g3', shows_same g4 g4']
  · exact absurd ⟨hs, ht⟩ hs'
  · exact absurd ⟨hs', ht'⟩ hs
  · rfl

theorem single_sort : Single sort := by
  rintro a _ _ ⟨l, p1, q1, rfl⟩ ⟨l', p2, q2, rfl⟩
  rw [(p1.trans p2.symm).eq_of_pairwise (fun a b _ _ => dictionary_antisymm) q1 q2]

theorem rows_single (E : Env) (s : Seat) (pl : Place) : ∀ row ∈ rows E s pl, Single row.2 := by
  have cond : ∀ (p q : Prop) r, Single (fun args x => p ∧ q ∧ plain r args x) := fun p q r a x y h1 h2 => single_plain r a x y h1.2.2 h2.2.2
  have text : ∀ f : Str → Str, Single (fun args x => ∃ a, args = [a] ∧ x = Reply.says (f a)) := by
    rintro f _ _ _ ⟨a, rfl, rfl⟩ ⟨b, e, rfl⟩
    cases e; rfl
  have value : ∀ k (f : Nat → Str), Single (fun args x => ∃ a v, args = [a] ∧ IsValue E k a v ∧ x = Reply.says (f v)) := by
    rintro k f _ _ _ ⟨a, v, rfl, h1, rfl⟩ ⟨b, u, e, h2, rfl⟩
    cases e; rw [isValue_same h1 h2]
  intro row h
  cases pl
  · simp only [rows, List.mem_cons, List.not_mem_nil, or_false] at h
    rcases h with h | h | h | h | h | h | h | h | h | h | h | h | h | h | h | h | h <;> rw [h]
    · exact single_numeric _
    · exact single_plain _
    · exact single_plain _
    · exact single_numeric _
    · exact single_numeric _
    · exact text (· ++ bs!"\n")
    · rintro _ _ _ ⟨a, b, rfl, rfl⟩ ⟨a', b', e, rfl⟩
      cases e; rfl
    · exact single_plain _
    · exact text (·.reverse ++ bs!"\n")
    · exact single_sum2
    · exact single_sum3
    · exact single_sort
    · exact value 0 (fun v => bs!"You entered bar: " ++ E.bar v ++ bs!"\n")
    · exact value 1 (fun v => bs!"You entered complex : " ++ E.complex v ++ bs!"\n")
    · exact cond _ _ _
    · exact cond _ _ _
    · exact single_plain _
  · simp only [rows, List.mem_cons, List.not_mem_nil, or_false] at h
    rcases h with h | h <;> rw [h] <;> exact single_plain _
  · simp only [rows, List.mem_cons, List.not_mem_nil, or_false] at h
    rw [h]; exact single_plain _

/-- Different rows have different names, or are for different numbers of arguments. -/
theorem rows_apart (E : Env) (s : Seat) (pl : Place) : (rows E s pl).Pairwise (fun x y => x.1 ≠ y.1 ∨ ∀ a r r', x.2 a r → ¬ y.2 a r') := by
  have echo : ∀ a r r', (fun args x => ∃ a, args = [a] ∧ x = Reply.says (a ++ bs!"\n")) a r → ¬ (fun args x => ∃ a b : Str, args = [a, b] ∧ x = Reply.says (a ++ bs!" " ++ b ++ bs!"\n")) a r' := by
    rintro _ _ _ ⟨a, rfl, _⟩ ⟨b, c, e, _⟩
    cases e
  have add : ∀ a r r', sum2 a r → ¬ sum3 a r' := by
    rintro _ _ _ ⟨a, b, i, j, rfl, _⟩ ⟨a', b', c', i', j', k', e, _⟩
    cases e
  cases pl
  · simp only [rows, List.pairwise_cons, List.forall_mem_cons]
    repeat' (first | exact List.Pairwise.nil | (intro y hy; cases hy; done) | exact .inl (by decide) | exact .inr echo | exact .inr add | refine ⟨?_, ?_⟩)
  · unfold rows
    refine .cons ?_ (.cons (by simp) .nil)
    intro y hy
    simp only [List.mem_cons, List.not_mem_nil, or_false] at hy
    subst hy; exact .inl (by decide)
  · exact .cons (by simp) .nil

theorem pairwise_mem {α : Type} {R : α → α → Prop} {l : List α} (h : l.Pairwise R) {a b : α} (ha : a ∈ l) (hb : b ∈ l) : a = b ∨ R a b ∨ R b a := by
  induction h with
  | nil => cases ha
  | cons h1 _ ih =>
    rcases List.mem_cons.1 ha with rfl | ha' <;> rcases List.mem_cons.1 hb with rfl | hb'
    · exact .inl rfl
    · exact .inr (.inl (h1 _ hb'))
    · exact .inr (.inr (h1 _ ha'))
    · exact ih ha' hb'

theorem rows_name (E : Env) (s : Seat) (pl : Place) : ∀ row ∈ rows E s pl, row.1 ∉ [bs!"help", bs!"exit", bs!"history", bs!"!", bs!"cli", bs!"sub", bs!"subsub", bs!".."] := by
  have key : ∀ n ∈ (rows E s pl).map (·.1), n ∉ [bs!"help", bs!"exit", bs!"history", bs!"!", bs!"cli", bs!"sub", bs!"subsub", bs!".."] := by
    cases pl <;> simp only [rows, List.map_cons, List.map_nil] <;> decide
  exact fun row h => key row.1 (List.mem_map_of_mem h)

/-- **C113** The table is unambiguous: a line does one thing at most. -/
theorem C113_table {E : Env} {s : Seat} : ∀ {toks : List Str} {pl : Place} {r r' : Reply}, Does E s pl toks r → Does E s pl toks r' → r = r'
  | [], _, _, _, h, _ => absurd h does_nil
  | t :: rest, pl, r, r', h1, h2 => by
    have hm : ∀ a : Place, a.name ∈ [bs!"help", bs!"exit", bs!"history", bs!"!", bs!"cli", bs!"sub", bs!"subsub", bs!".."] := by intro a; cases a <;> decide
    have sub : ∀ {q : Place} {x y : Reply}, ((rest = [] ∧ x = .goes q) ∨ Does E s q rest x) → ((rest = [] ∧ y = .goes q) ∨ Does E s q rest y) → x = y := by
      rintro q x y (⟨e, rfl⟩ | h) (⟨e', rfl⟩ | h')
      · rfl
      · rw [e] at h'; exact absurd h' does_nil
      · rw [e'] at h; exact absurd h does_nil
      · exact C113_table h h'
    have up : ∀ {a : Place} , (t = a.name ∨ t = bs!"..") → t ∈ [bs!"help", bs!"exit", bs!"history", bs!"!", bs!"cli", bs!"sub", bs!"subsub", bs!".."] := by
      rintro a (rfl | rfl)
      · exact hm a
      · decide
    rcases does_cons.1 h1 with ⟨x, m1, n1, d1⟩ | ⟨b, a1, n1, d1⟩ | ⟨b, a1, n1, d1⟩ <;> rcases does_cons.1 h2 with ⟨y, m2, n2, d2⟩ | ⟨c, a2, n2, d2⟩ | ⟨c, a2, n2, d2⟩
    · rcases pairwise_mem (rows_apart E s pl) m1 m2 with rfl | (h | h) | (h | h)
      · exact rows_single E s pl x m1 _ _ _ d1 d2
      · exact absurd (n1.symm.trans n2) h
      · exact absurd d2 (h _ _ _ d1)
      · exact absurd (n2.symm.trans n1) h
      · exact absurd d1 (h _ _ _ d2)
    · exact absurd (by rw [← n1, n2]; exact hm c) (rows_name E s pl x m1)
    · exact absurd (by rw [← n1]; exact up n2) (rows_name E s pl x m1)
    · exact absurd (by rw [← n2, n1]; exact hm b) (rows_name E s pl y m2)
    · have : b = c := by rcases a1 with ⟨h, rfl⟩ | ⟨h, rfl⟩ <;> rcases a2 with ⟨h', rfl⟩ | ⟨h', rfl⟩ <;> first | rfl | (rw [h] at h'; cases h')
      subst this; exact sub d1 d2
    · exfalso
      rcases a1 with ⟨rfl, rfl⟩ | ⟨rfl, rfl⟩ <;> rcases a2 with ⟨rfl, h⟩ | ⟨rfl, h⟩ <;> first | (cases h; done) | (subst n1; rcases n2 with n2 | n2 <;> revert n2 <;> decide)
    · exact absurd (by rw [← n2]; exact up n1) (rows_name E s pl y m2)
    · exfalso
      rcases a2 with ⟨rfl, rfl⟩ | ⟨rfl, rfl⟩ <;> rcases a1 with ⟨rfl, h⟩ | ⟨rfl, h⟩ <;> first | (cases h; done) | (subst n2; rcases n1 with n1 | n1 <;> revert n1 <;> decide)
    · have : b = c := by rcases a1 with ⟨rfl, h⟩ | ⟨rfl, h⟩ <;> rcases a2 with ⟨rfl, h'⟩ | ⟨rfl, h'⟩ <;> first | rfl | (rw [h] at h'; cases h')
      subst this; exact sub d1 d2

theorem does_tokens {E : Env} {s : Seat} {pl : Place} {toks : List Str} {r : Reply} (h : Does E s pl toks r) : toks ∉ [[], [bs!"help"], [bs!"history"], [bs!"exit"]] ∧ ∀ a, toks ≠ [bs!"!", a] := by
  have key : ∀ t rest, toks = t :: rest → t ∉ [bs!"help", bs!"exit", bs!"history", bs!"!"] := by
    rintro t rest rfl
    rcases does_cons.1 h with ⟨x, m, rfl, _⟩ | ⟨b, _, rfl, _⟩ | ⟨b, _, rfl | rfl, _⟩
    · have := rows_name E s pl x m
      simp only [List.mem_cons, List.not_mem_nil, or_false, not_or] at this ⊢
      exact ⟨this.1, this.2.1, this.2.2.1, this.2.2.2.1⟩
    · cases b <;> decide
    · cases b <;> decide
    · decide
  constructor
  · intro hm
    simp only [List.mem_cons, List.not_mem_nil, or_false] at hm
    rcases hm with rfl | rfl | rfl | rfl
    · exact does_nil h
    all_goals exact absurd (by decide) (key _ _ rfl)
  · rintro a rfl
    exact absurd (by decide) (key _ _ rfl)

theorem line_unique {E : Env} {s s1 s2 : Seat} {l t1 t2 : Str} (h1 : Line E s l s1 t1) (h2 : Line E s l s2 t2) : s1 = s2 ∧ t1 = t2 := by
  have key : ∀ {toks r}, Lex.Line l toks → Does E s s.place toks r → ∀ {u}, Lex.Line l u → u ∈ [[], [bs!"help"], [bs!"history"], [bs!"exit"]] → False := by
    intro toks r hl hd u hu hm
    cases line_same hl hu
    exact (does_tokens hd).1 hm
  have nw : ∀ {toks}, Lex.Line l toks → toks ∉ [[], [bs!"help"], [bs!"history"], [bs!"exit"]] → ∀ {u}, Lex.Line l u → u ∈ [[], [bs!"help"], [bs!"history"], [bs!"exit"]] → False := by
    intro toks hl hn u hu hm
    cases line_same hl hu
    exact hn hm
  cases h1 with
  | help a =>
    cases h2 with
    | help b => exact ⟨rfl, rfl⟩
    | does b c => exact (key b c a (by simp)).elim
    | wrong b c => exact (nw b c a (by simp)).elim
  | does a e =>
    cases h2 with
    | help b => exact (key a e b (by simp)).elim
    | does b c => cases line_same a b; cases C113_table e c; exact ⟨rfl, rfl⟩
    | wrong b c d f => cases line_same a b; exact absurd e (f _)
  | wrong a e g i =>
    cases h2 with
    | help b => exact (nw a e b (by simp)).elim
    | does b c => cases line_same a b; exact absurd c (i _)
    | wrong b c d f => exact ⟨rfl, rfl⟩

/-- What kind of line it is. -/
theorem line_kind {E : Env} {s s' : Seat} {l t : Str} (h : Line E s l s' t) : ¬ Lex.Line l [] ∧ ¬ Lex.Line l [bs!"history"] ∧ ¬ Lex.Line l [bs!"exit"] ∧ ¬ Bang l ∧ ¬ Overflows E s l := by
  have key : ∀ {toks : List Str}, Lex.Line l toks → toks ∉ [[], [bs!"history"], [bs!"exit"]] → ¬ Lex.Line l [] ∧ ¬ Lex.Line l [bs!"history"] ∧ ¬ Lex.Line l [bs!"exit"] := by
    intro toks h1 h2
    refine ⟨?_, ?_, ?_⟩ <;> intro h3 <;> cases line_same h1 h3 <;> simp at h2
  cases h with
  | help a =>
    obtain ⟨k1, k2, k3⟩ := key a (by decide)
    refine ⟨k1, k2, k3, ?_, ?_⟩
    · rintro ⟨n, x, h, _⟩; cases line_same a h
    · rintro ⟨u, h1, h2⟩; cases line_same a h1; exact (does_tokens h2).1 (by simp)
  | does a d hr =>
    have hd := does_tokens d
    obtain ⟨k1, k2, k3⟩ := key a (fun hm => hd.1 (by simp only [List.mem_cons, List.not_mem_nil, or_false] at hm ⊢; rcases hm with h | h | h <;> simp [h]))
    refine ⟨k1, k2, k3, ?_, ?_⟩
    · rintro ⟨n, x, h, _⟩; exact hd.2 x (line_same a h)
    · rintro ⟨u, h1, h2⟩; cases line_same a h1; exact hr (C113_table d h2)
  | wrong a hn hb hd =>
    obtain ⟨k1, k2, k3⟩ := key a (fun hm => hn (by simp only [List.mem_cons, List.not_mem_nil, or_false] at hm ⊢; rcases hm with h | h | h <;> simp [h]))
    refine ⟨k1, k2, k3, hb, ?_⟩
    rintro ⟨u, h1, h2⟩; cases line_same a h1; exact hd _ h2

theorem recalls_same {l : Str} {n m : Nat} (h1 : Recalls l n) (h2 : Recalls l m) : n = m := by
  obtain ⟨a, a1, a2, a3⟩ := h1
  obtain ⟨b, b1, b2, b3⟩ := h2
  cases line_same a1 b1
  have e := ((FromString.unsigned_ok plat .w32 _ _).2 ⟨a2, a3⟩).symm.trans ((FromString.unsigned_ok plat .w32 _ _).2 ⟨b2, b3⟩)
  cases e; rfl

theorem recalls_kind {l : Str} {n : Nat} (h : Recalls l n) : ¬ Lex.Line l [] ∧ ¬ Lex.Line l [bs!"history"] ∧ ¬ Lex.Line l [bs!"exit"] := by
  obtain ⟨a, h, _⟩ := h
  refine ⟨?_, ?_, ?_⟩ <;> intro h3 <;> cases line_same h h3

theorem listing_same {b : Book} {n : Nat} {c d : Str} (h1 : (n, c) ∈ b.listing) (h2 : (n, d) ∈ b.listing) : c = d := by
  obtain ⟨i, g1, e1⟩ := mem_number.1 h1
  obtain ⟨j, g2, e2⟩ := mem_number.1 h2
  obtain rfl : i = j := by omega
  rw [g1] at g2; cases g2; rfl

theorem answer_unique {E : Env} {s a b : Seat} {l t u : Str} (h1 : Answer E s l a t) (h2 : Answer E s l b u) : a = b ∧ t = u := by
  induction h1 generalizing b u with
  | blank x =>
    cases h2 with
    | blank => exact ⟨rfl, rfl⟩
    | line y => exact absurd x (line_kind y).1
    | history y => cases line_same x y
    | again y => exact absurd x (recalls_kind y).1
    | unknown y => exact absurd x (recalls_kind y).1
  | line x =>
    cases h2 with
    | blank y => exact absurd y (line_kind x).1
    | line y => exact line_unique x y
    | history y => exact absurd y (line_kind x).2.1
    | again y => exact absurd ⟨_, y⟩ (line_kind x).2.2.2.1
    | unknown y => exact absurd ⟨_, y⟩ (line_kind x).2.2.2.1
  | history x =>
    cases h2 with
    | blank y => cases line_same x y
    | line y => exact absurd x (line_kind y).2.1
    | history => exact ⟨rfl, rfl⟩
    | again y => exact absurd x (recalls_kind y).2.1
    | unknown y => exact absurd x (recalls_kind y).2.1
  | again x m _ ih =>
    cases h2 with
    | blank y => exact absurd y (recalls_kind x).1
    | line y => exact absurd ⟨_, x⟩ (line_kind y).2.2.2.1
    | history y => exact absurd y (recalls_kind x).2.1
    | again y m' h =>
      cases recalls_same x y
      cases listing_same m m'
      exact ih h
    | unknown y m' =>
      cases recalls_same x y
      exact absurd m (m' _)
  | unknown x m =>
    cases h2 with
    | blank y => exact absurd y (recalls_kind x).1
    | line y => exact absurd ⟨_, x⟩ (line_kind y).2.2.2.1
    | history y => exact absurd y (recalls_kind x).2.1
    | again y m' h =>
      cases recalls_same x y
      exact absurd m' (m _)
    | unknown y => exact ⟨rfl, rfl⟩

/-- A line that is answered does not end the session. -/
theorem answer_no_quit {E : Env} {s s' : Seat} {l t : Str} (h1 : Answer E s l s' t) (h2 : Quits s l) : False := by
  induction h2 generalizing s' t with
  | exit x =>
    cases h1 with
    | blank y => cases line_same x y
    | line y => exact (line_kind y).2.2.1 x
    | history y => cases line_same x y
    | again y => exact (recalls_kind y).2.2 x
    | unknown y => exact (recalls_kind y).2.2 x
  | again x m _ ih =>
    cases h1 with
    | blank y => exact (recalls_kind x).1 y
    | line y => exact (line_kind y).2.2.2.1 ⟨_, x⟩
    | history y => exact (recalls_kind x).2.1 y
    | again y m' h =>
      cases recalls_same x y
      cases listing_same m m'
      exact ih h
    | unknown y m' =>
      cases recalls_same x y
      exact m' _ m

theorem output_unique {E : Env} {s a b : Seat} {ls : List Str} {o o' : Str} (h1 : Output E s ls a o) (h2 : Output E s ls b o') : a = b ∧ o = o' := by
  induction h1 generalizing b o' with
  | nil => cases h2; exact ⟨rfl, rfl⟩
  | line hl _ ih =>
    cases h2 with
    | line hl' ho =>
      obtain ⟨rfl, rfl⟩ := answer_unique hl hl'
      obtain ⟨rfl, rfl⟩ := ih ho
      exact ⟨rfl, rfl⟩

/-! ### The history -/

theorem kept_record {b : Book} {h : History.History} (k : Kept b h) (hw : History.WF h) (l : Str) : ∃ x, History.newCommand h l = .ok x ∧ Kept (b.record l) x := by
  have hlen : b.entries.length ≤ b.room := by
    have := hw.bound
    rw [k.entries, k.room] at this
    simpa using this
  have hh : h.buffer.head? = b.entries.getLast? := by rw [k.entries, List.head?_reverse]
  unfold History.newCommand Book.record
  simp only [k.mode, hh]
  by_cases h1 : b.entries.getLast? = some l
  · rw [if_neg (by simpa using h1), if_pos h1]
    exact ⟨_, rfl, rfl, k.room, k.first, k.entries, by simp [k.entered]⟩
  · rw [if_pos h1, if_neg h1]
    refine ⟨_, rfl, rfl, ?_, ?_, ?_, ?_⟩
    all_goals
      simp only [History.insert, k.entries, k.room, k.first, k.entered, List.length_cons, List.length_reverse]
      by_cases h2 : b.entries.length < b.room
      · rw [if_neg (by omega), if_pos h2]
        try simp [k.room, k.first]
      · rw [if_pos (by omega), if_neg h2]
        try (show (l :: b.entries.reverse).dropLast = ((b.entries ++ [l]).drop 1).reverse; rw [show l :: b.entries.reverse = (b.entries ++ [l]).reverse by simp, List.dropLast_reverse, List.drop_one])

theorem kept_forget {b : Book} {h : History.History} (k : Kept b h) (hb : b.entries ≠ []) : ∃ x, History.forgetLatest h = .ok x ∧ Kept b.forget x := by
  unfold History.forgetLatest
  cases hbuf : h.buffer with
  | nil => rw [k.entries] at hbuf; exact absurd (List.reverse_eq_nil_iff.1 hbuf) hb
  | cons c rest =>
    have e : b.entries = rest.reverse ++ [c] := by
      have := congrArg List.reverse (k.entries.symm.trans hbuf)
      simpa using this
    exact ⟨_, rfl, k.mode, k.room, k.first, by simp [Book.forget, e], k.entered⟩

theorem kept_listing {b : Book} {h : History.History} (k : Kept b h) : History.listing h = b.listing := by
  simp [History.listing, Book.listing, k.first, k.entries]

theorem mem_record {b : Book} {l c : Str} (h : c ∈ (b.record l).entries) : c ∈ b.entries ∨ c = l := by
  unfold Book.record at h
  split at h
  · exact .inl h
  · split at h
    · simpa using h
    · simpa using List.mem_of_mem_drop h

theorem mem_skipped {s : Seat} {l c : Str} (h : c ∈ (s.skipped l).book.entries) : c ∈ s.book.entries := by
  simp only [Seat.skipped, Book.forget, Book.record] at h
  split at h
  · exact List.dropLast_subset _ h
  · split at h
    · simpa using h
    · have h : c ∈ ((s.book.entries ++ [l]).drop 1).dropLast := h
      rw [List.drop_one, ← List.tail_dropLast, List.dropLast_concat] at h
      exact List.mem_of_mem_tail h

theorem mem_listing {b : Book} {n : Nat} {c : Str} (h : (n, c) ∈ b.listing) : c ∈ b.entries := by
  obtain ⟨i, h, _⟩ := mem_number.1 h
  exact List.mem_of_getElem? h

/-- A line that ends the session is defined. -/
theorem fails_no_quit {E : Env} {s : Seat} {l : Str} (h1 : Fails E s l) (h2 : Quits s l) : False := by
  induction h1 with
  | sum x =>
    obtain ⟨toks, x1, x2⟩ := x
    cases h2 with
    | exit y => cases line_same x1 y; exact (does_tokens x2).1 (by simp)
    | again y => obtain ⟨a, y, _⟩ := y; cases line_same x1 y; exact (does_tokens x2).2 a rfl
  | again x m _ ih =>
    cases h2 with
    | exit y => exact (recalls_kind x).2.2 y
    | again y m' h =>
      cases recalls_same x y
      cases listing_same m m'
      exact ih h
  | empty x e =>
    cases h2 with
    | exit y => obtain ⟨n, x⟩ := x; exact (recalls_kind x).2.2 y
    | @again _ _ n c y m' h =>
      have hm := mem_listing m'
      rcases e with e | ⟨_, e⟩
      · have e : (Book.record _ _).entries = [] := e
        simp [Seat.skipped, Book.forget, e] at hm
      · rw [e] at hm; cases hm

/-! ### One line -/

section
variable (E : Env) {store : τ → List Str → τ} {stored : τ → List Str} {telnet : Bool}

theorem at_record {s : Seat} {w : W τ} (h : At s w) (line : Str) : ∃ x, History.newCommand w.hist line = .ok x ∧ At (s.recorded line) (w.entered x) ∧ x.mode = .inserting := by
  obtain ⟨x, a, b, _, c, _⟩ := History.newCommand_ok h.hist line
  obtain ⟨y, d, e⟩ := kept_record h.kept h.hist line
  cases a.symm.trans d
  exact ⟨x, a, ⟨h.tree, h.others, h.color15, h.color16, h.current, h.exit, h.app, h.color, h.escapes, b, e⟩, c⟩

theorem root_help : (rootKids false).helpText (fun i => i == 16) = (Seat.offers ⟨.root, false, false, false, ⟨0, 0, [], 0⟩⟩).flatMap HelpItem.text ∧ (rootKids false).helpText (fun i => i == 15) = (Seat.offers ⟨.root, true, false, false, ⟨0, 0, [], 0⟩⟩).flatMap HelpItem.text ∧
    (rootKids true).helpText (fun _ => false) = (Seat.offers ⟨.root, false, true, false, ⟨0, 0, [], 0⟩⟩).flatMap HelpItem.text := by
  refine ⟨?_, ?_, ?_⟩ <;> decide +kernel

/-- The help text depends on the commands of the menu alone. -/
theorem helpText_congr {d e : Id → Bool} : ∀ {f : Forest}, (∀ i ∈ f.ids, d i = e i) → f.helpText d = f.helpText e
  | .nil, _ => rfl
  | .cmd c rest, h => by
    simp only [Forest.helpText]
    rw [h c.id (by simp [Forest.ids]), helpText_congr (f := rest) (fun i hi => h i (by simp [Forest.ids, hi]))]
  | .menu m k rest, h => by
    simp only [Forest.helpText]
    rw [h m.id (by simp [Forest.ids]), helpText_congr (f := rest) (fun i hi => h i (by simp [Forest.ids, hi]))]

theorem help_text {s : Seat} {w : W τ} (h : At s w) : helpCmd (w.note (.builtin .help)) = .ok ({ w.note (.builtin .help) with io := w.io.put (bs!"Commands available:\n" ++ (globalItems ++ s.offers).flatMap HelpItem.text) }) := by
  unfold helpCmd
  have e : (w.note (.builtin .help)).tree.locate (w.note (.builtin .help)).current = some (path s.gone s.place) := by
    show w.tree.locate w.current = _
    rw [h.tree, h.current, locate_place]
  rw [e]
  have hg : globalCmds.flatMap Cmd.helpText = globalItems.flatMap HelpItem.text := by decide +kernel
  have key : mainHelp w.dis (path s.gone s.place) = s.offers.flatMap HelpItem.text := by
    obtain ⟨pl, col, gone, esc, bk⟩ := s
    have d0 : w.dis (0 : Nat) = false := h.others 0 (by decide) (by decide)
    have d18 : w.dis (18 : Nat) = false := h.others 18 (by decide) (by decide)
    have d21 : w.dis (21 : Nat) = false := h.others 21 (by decide) (by decide)
    cases pl with
    | root =>
      simp only [path, mainHelp, rootInfo, d0, Bool.false_eq_true, if_false, List.append_nil]
      cases gone with
      | true =>
        rw [helpText_congr (e := fun _ => false) (fun i hi => h.others i (by rintro rfl; revert hi; decide) (by rintro rfl; revert hi; decide)), root_help.2.2]
        cases col <;> rfl
      | false =>
        have e15 := h.color15 rfl
        have e16 := h.color16 rfl
        cases col with
        | false =>
          rw [helpText_congr (e := fun i => i == 16) (fun i _ => ?_), root_help.1]
          · rfl
          · by_cases h1 : i = (15 : Nat)
            · subst h1; exact e15
            · by_cases h2 : i = (16 : Nat)
              · subst h2; exact e16
              · rw [h.others i h1 h2]; simp [h2]
        | true =>
          rw [helpText_congr (e := fun i => i == 15) (fun i _ => ?_), root_help.2.1]
          · rfl
          · by_cases h1 : i = (15 : Nat)
            · subst h1; exact e15
            · by_cases h2 : i = (16 : Nat)
              · subst h2; exact e16
              · rw [h.others i h1 h2]; simp [h1]
    | sub =>
      have e : subKids.helpText w.dis = subKids.helpText (fun _ => false) := helpText_congr (fun i hi => h.others i (by rintro rfl; revert hi; decide) (by rintro rfl; revert hi; decide))
      simp only [path, mainHelp, subInfo, rootInfo, d0, d18, Bool.false_eq_true, if_false, e]
      show _ = (Seat.offers ⟨.sub, false, false, false, ⟨0, 0, [], 0⟩⟩).flatMap HelpItem.text
      decide +kernel
    | subsub =>
      have e : subsubKids.helpText w.dis = subsubKids.helpText (fun _ => false) := helpText_congr (fun i hi => h.others i (by rintro rfl; revert hi; decide) (by rintro rfl; revert hi; decide))
      simp only [path, mainHelp, subsubInfo, subInfo, d18, d21, Bool.false_eq_true, if_false, e]
      show _ = (Seat.offers ⟨.subsub, false, false, false, ⟨0, 0, [], 0⟩⟩).flatMap HelpItem.text
      decide +kernel
  simp only [World.put, World.note]
  rw [hg, key]
  simp

/-- What a session that ends does to what the others share: it saves these lines. -/
structure Leaves (store : τ → List Str → τ) (cmds : List Str) (w w' : W τ) : Prop where
  tree : w'.tree = w.tree
  dis : w'.dis = w.dis
  color : w'.io.style.color = w.io.style.color
  casts : w'.casts = w.casts
  saved : w'.storage = store w.storage cmds

theorem kept_saved {b : Book} {h : History.History} (k : Kept b h) : (h.buffer.take (min h.commands h.buffer.length)).reverse = b.saved := by
  rw [k.entries, k.entered, Book.saved, lastN, List.length_reverse]
  by_cases hle : b.entered ≤ b.entries.length
  · rw [Nat.min_eq_left hle, List.take_reverse, List.reverse_reverse]
  · rw [Nat.min_eq_right (by omega), List.take_of_length_le (by simp), List.reverse_reverse, show b.entries.length - b.entered = 0 by omega]; rfl

/-- What is saved are lines of the session. -/
theorem saves_mem {s : Seat} {l : Str} {cmds : List Str} (h : Saves s l cmds) : ∀ c ∈ cmds, c ∈ s.book.entries ∨ (c = l ∧ ¬ Bang l) := by
  induction h with
  | exit h =>
    intro c hc
    rcases mem_record (List.mem_of_mem_drop hc) with h1 | h1
    · exact .inl h1
    · refine .inr ⟨h1, ?_⟩
      rintro ⟨n, a, h2, _⟩
      exact absurd (line_same h h2) (by simp)
  | again h1 h2 _ ih =>
    intro c hc
    rcases ih c hc with h | ⟨rfl, _⟩
    · exact .inl (mem_skipped h)
    · exact .inl (mem_skipped (mem_listing h2))

theorem saves_quits {s : Seat} {l : Str} {cmds : List Str} (h : Saves s l cmds) : Quits s l := by
  induction h with
  | exit h => exact .exit h
  | again h1 h2 _ ih => exact .again h1 h2 ih

/-- The other sessions are told what the line makes a command say to all. -/
def Told (E : Env) (s : Seat) (l : Str) (w w' : W τ) : Prop :=
  ∃ ts, w'.casts = w.casts ++ ts ∧ w'.storage = w.storage ∧ ((ts = [] ∧ ∀ t, ¬ Announces E s l t) ∨ ∃ t, ts = [t] ∧ Announces E s l t)

theorem exit_says {s : Seat} {w : W τ} (h : At s w) (hm : w.hist.mode = .inserting) :
    ∃ w', exitSession (app E store stored telnet) w = .ok (w', none) ∧ w'.io.out = w.io.out ++ farewell telnet ∧ w'.exit = true ∧ w'.app = ⟨!telnet, false⟩ ∧ Leaves store s.book.saved w w' := by
  have ha := h.app
  cases telnet
  · refine ⟨?w1, ?e1, ?_⟩
    case e1 =>
      simp only [exitSession, app, leaves, writes, callAction, optAction, World.effect, World.note, List.foldl_cons, List.foldl_nil, World.act, World.put, Io.put, History.getCommands, hm, Bool.false_eq_true, if_false, if_true]
      rfl
    refine ⟨?_, rfl, ?_, ⟨rfl, rfl, rfl, rfl, ?_⟩⟩
    · simp [farewell]
    · simp [ha]
    · rw [← kept_saved h.kept]
  · refine ⟨?w2, ?e2, ?_⟩
    case e2 =>
      simp only [exitSession, app, leaves, writes, callAction, optAction, World.effect, World.note, List.foldl_cons, List.foldl_nil, World.act, World.put, Io.put, History.getCommands, hm, Bool.false_eq_true, if_false, if_true]
      rfl
    refine ⟨?_, rfl, ?_, ⟨rfl, rfl, rfl, rfl, ?_⟩⟩
    · simp [farewell]
    · simp [ha]
    · rw [← kept_saved h.kept]

theorem told_does {s : Seat} {l : Str} {toks : List Str} {r : Reply} {w w' : W τ} (hl : Lex.Line l toks) (hb : ¬ Bang l) (hd : Does E (s.recorded l) s.place toks r) (hc : w'.casts = w.casts ++ r.cast) (hs : w'.storage = w.storage) : Told E s l w w' := by
  refine ⟨r.cast, hc, hs, ?_⟩
  have key : ∀ t, Announces E s l t → r = .announces t := by
    intro t h
    cases h with
    | here h1 h2 => cases line_same hl h1; exact C113_table hd h2
    | again h1 => exact absurd ⟨_, h1⟩ hb
  cases r with
  | announces t => exact .inr ⟨t, rfl, .here hl hd⟩
  | _ => exact .inl ⟨rfl, fun t h => by cases key t h⟩

theorem told_none {s : Seat} {l : Str} {toks : List Str} {w w' : W τ} (hl : Lex.Line l toks) (hb : ¬ Bang l) (hd : ∀ r, ¬ Does E (s.recorded l) s.place toks r) (hc : w'.casts = w.casts) (hs : w'.storage = w.storage) : Told E s l w w' := by
  refine ⟨[], by simp [hc], hs, .inl ⟨rfl, ?_⟩⟩
  intro t h
  cases h with
  | here h1 h2 => cases line_same hl h1; exact hd _ h2
  | again h1 => exact hb ⟨_, h1⟩

/-- What one line does that does not refer to the history. -/
theorem line_full (hq : Quiet E) (fuel : Nat) {s : Seat} {w : W τ} {l : Str} (h : At s w) (hh : Harmless E.p l) (hn : ¬ Looks l) (hne : ¬ Lex.Line l []) :
    (∃ w', Lex.Line l [bs!"exit"] ∧ feed (app E store stored telnet) (fuel + 1) l w = .ok (w', none) ∧ w'.io.out = w.io.out ++ farewell telnet ∧ w'.exit = true ∧ w'.app = ⟨!telnet, false⟩ ∧ Leaves store (s.recorded l).book.saved w w') ∨
    (∃ w', Overflows E (s.recorded l) l ∧ feed (app E store stored telnet) (fuel + 1) l w = .ok (w', none) ∧ w'.app.ub = true) ∨
    (∃ w' s' t, feed (app E store stored telnet) (fuel + 1) l w = .ok (w', none) ∧ Line E (s.recorded l) l s' t ∧ At s' w' ∧ w'.io.out = w.io.out ++ t ∧ Told E s l w w') := by
  obtain ⟨toks, hl⟩ := line_exists l
  have hb : toks ≠ [] := by rintro rfl; exact hne hl
  obtain ⟨x, hx, hr, hmode⟩ := at_record h l
  rw [feed_eq (app E store stored telnet) hl hb, hx]
  simp only
  have hfine := harmless_fine hh hl
  have hout : (w.entered x).io = w.io := rfl
  rcases scanGlobal_cases (app E store stored telnet) (feed (app E store stored telnet) fuel) toks hb (w.entered x) with ⟨g1, g2⟩ | ⟨_, _, a, ha, c, hc, hu⟩ | ⟨g1, g2⟩ | ⟨g1, g2⟩ | ⟨g1, g2⟩ | ⟨a, n, g1, g2, g3, g4⟩
  · have hnb : ¬ Bang l := fun h => hn (.inr h)
    simp only [body, g2, userPart]
    rcases scan_agrees E hq hb hfine hr with ⟨r, w', d1, d2, d3⟩ | ⟨d1, d2⟩
    · rw [d2]
      by_cases hu : r = .undefined
      · subst hu
        refine .inr (.inl ⟨w', ⟨toks, hl, d1⟩, rfl, d3.ub rfl⟩)
      · refine .inr (.inr ?_)
        have tl : Told E s l w w' := told_does E hl hnb d1 d3.casts d3.storage
        by_cases ht : ∃ m, r = .throws m
        · obtain ⟨m, rfl⟩ := ht
          refine ⟨_, s.recorded l, _, rfl, .does hl d1 hu, ?_, ?_, tl⟩
          · exact at_note (d3.next hu) (w'.io.put _) _ _ rfl
          · have := d3.out
            simp only [Reply.said, List.append_nil, hout] at this
            simp only [reportException, app, writes, World.effect, World.note, List.foldl_cons, List.foldl_nil, World.act, World.put, Io.put, this, Reply.text, Exn.what]
        · have ho : outcome r = .found := by cases r <;> first | rfl | exact absurd ⟨_, rfl⟩ ht
          rw [ho]
          refine ⟨w', _, _, rfl, .does hl d1 hu, d3.next hu, ?_, tl⟩
          rw [d3.out, hout]
          congr 1
          cases r with
          | throws m => exact absurd ⟨m, rfl⟩ ht
          | colour on => cases on <;> rfl
          | _ => rfl
    · rw [d2]
      refine .inr (.inr ⟨_, s.recorded l, _, rfl, .wrong hl ?_ hnb d1, at_note hr (w.io.put _) _ _ rfl, rfl, told_none E hl hnb d1 rfl rfl⟩)
      simp only [List.mem_cons, List.not_mem_nil, or_false, not_or]
      refine ⟨hb, ?_, ?_, ?_⟩ <;> rintro rfl
      · exact g1 _ .help
      · exact g1 _ .history
      · exact g1 _ .exit
  · subst ha
    have := (hfine a (by simp)).1 c hc
    rw [show (app E store stored telnet).plat = E.p from rfl, this] at hu
    cases hu
  · subst g1
    simp only [body, g2, helpPart, help_text hr]
    exact .inr (.inr ⟨_, s.recorded l, _, rfl, .help hl, at_note hr (w.io.put _) _ _ rfl, rfl, told_none E hl (fun h => hn (.inr h)) (fun r h => (does_tokens h).1 (by simp)) rfl rfl⟩)
  · subst g1
    obtain ⟨w', e1, e2, e3⟩ := exit_says (store := store) (stored := stored) (telnet := telnet) E (w := (w.entered x).note (.builtin .exit)) (at_note hr w.io _ _ rfl) hmode
    simp only [body, g2, exitPart, e1, builtinOutcome, catchAll]
    have lv : Leaves store (s.recorded l).book.saved w w' := by
      have := e3.2.2
      exact ⟨this.tree, this.dis, this.color, this.casts, this.saved⟩
    exact .inl ⟨w', hl, rfl, e2, e3.1, e3.2.1, lv⟩
  · subst g1
    exact absurd (.inl hl) hn
  · subst g1
    exact absurd (.inr ⟨n, a, hl, g2, g3⟩) hn

theorem line_book {s s' : Seat} {l t : Str} (h : Line E s l s' t) : s'.book = s.book := by
  cases h with
  | does _ _ _ => rename_i r _ _ _; cases r <;> rfl
  | _ => rfl

/-- What one line does that is not `!` and a number. -/
theorem plain_full (hq : Quiet E) (fuel : Nat) {s : Seat} {w : W τ} {l : Str} (h : At s w) (hh : Harmless E.p l) (hn : ¬ Bang l) :
    (∃ w' cmds, Saves s l cmds ∧ feed (app E store stored telnet) (fuel + 1) l w = .ok (w', none) ∧ w'.io.out = w.io.out ++ farewell telnet ∧ w'.exit = true ∧ w'.app = ⟨!telnet, false⟩ ∧ Leaves store cmds w w') ∨
    (∃ w', Fails E s l ∧ feed (app E store stored telnet) (fuel + 1) l w = .ok (w', none) ∧ w'.app.ub = true) ∨
    (∃ w' s' t, ¬ Fails E s l ∧ feed (app E store stored telnet) (fuel + 1) l w = .ok (w', none) ∧ Answer E s l s' t ∧ At s' w' ∧ w'.io.out = w.io.out ++ t ∧ Told E s l w w' ∧ (s'.book = s.book ∨ s'.book = s.book.record l)) := by
  have nfail : ¬ Overflows E (s.recorded l) l → ¬ Fails E s l := by
    intro h1 h2
    cases h2 with
    | sum h => exact h1 h
    | again h => exact hn ⟨_, h⟩
    | empty h => exact hn h
  have ntab : ∀ {toks : List Str}, Lex.Line l toks → toks ∈ [[], [bs!"help"], [bs!"history"], [bs!"exit"]] → ¬ Overflows E (s.recorded l) l := by
    rintro toks h1 h2 ⟨u, h3, h4⟩
    cases line_same h1 h3
    exact (does_tokens h4).1 h2
  by_cases h0 : Lex.Line l []
  · exact .inr (.inr ⟨w, s, [], nfail (ntab h0 (by simp)), feed_blank (app E store stored telnet) h0 fuel w, .blank h0, h, by simp, told_none E h0 hn (fun r h => does_nil h) rfl rfl, .inl rfl⟩)
  by_cases h1 : Lex.Line l [bs!"history"]
  · obtain ⟨x, hx, hr, hmode⟩ := at_record h l
    have hf : feed (app E store stored telnet) (fuel + 1) l w = .ok (((w.entered x).note (.builtin .history)).put (HistoryList.render (s.recorded l).book.listing), none) := by
      rw [feed_eq (app E store stored telnet) h1 (by simp), hx]
      rcases scanGlobal_cases (app E store stored telnet) (feed (app E store stored telnet) fuel) [bs!"history"] (by simp) (w.entered x) with ⟨g1, g2⟩ | ⟨_, _, a, ha, _⟩ | ⟨g1, _⟩ | ⟨g1, _⟩ | ⟨g1, g2⟩ | ⟨a, n, g1, _⟩
      · exact absurd .history (g1 .history)
      · cases ha
      · exact absurd g1 (by decide)
      · exact absurd g1 (by decide)
      · simp only [body, g2, historyPart, catchAll, kept_listing hr.kept]
      · cases g1
    exact .inr (.inr ⟨_, s.recorded l, _, nfail (ntab h1 (by simp)), hf, .history h1, at_note hr (w.io.put _) _ _ rfl, rfl, told_none E h1 hn (fun r h => (does_tokens h).1 (by simp)) rfl rfl, .inr rfl⟩)
  rcases line_full (store := store) (stored := stored) (telnet := telnet) E hq fuel h hh (fun h => h.elim h1 hn) h0 with ⟨w', e1, e2⟩ | ⟨w', e1, e2⟩ | ⟨w', s', t, e1, e2, e3, e4⟩
  · exact .inl ⟨w', _, .exit e1, e2⟩
  · exact .inr (.inl ⟨w', .sum e1, e2⟩)
  · exact .inr (.inr ⟨w', s', t, nfail (line_kind e2).2.2.2.2, e1, .line e2, e3, e4.1, e4.2, .inr (line_book E e2)⟩)

/-- **What one line does**, if it does not refer to the history through too many lines. -/
theorem answer_deep (hq : Quiet E) : ∀ (k fuel : Nat) {s : Seat} {w : W τ} {l : Str}, At s w → Within E k s l →
    (∃ w' cmds, Saves s l cmds ∧ feed (app E store stored telnet) (fuel + k + 1) l w = .ok (w', none) ∧ w'.io.out = w.io.out ++ farewell telnet ∧ w'.exit = true ∧ w'.app = ⟨!telnet, false⟩ ∧ Leaves store cmds w w') ∨
    (Fails E s l ∧ ((∃ w', feed (app E store stored telnet) (fuel + k + 1) l w = .ok (w', none) ∧ w'.app.ub = true) ∨ ∃ u, feed (app E store stored telnet) (fuel + k + 1) l w = .error (.ub u))) ∨
    (∃ w' s' t, ¬ Fails E s l ∧ feed (app E store stored telnet) (fuel + k + 1) l w = .ok (w', none) ∧ Answer E s l s' t ∧ At s' w' ∧ w'.io.out = w.io.out ++ t ∧ Told E s l w w') := by
  intro k
  induction k with
  | zero =>
    intro fuel s w l h hw
    cases hw with
    | plain hh hb =>
      rcases plain_full (store := store) (stored := stored) (telnet := telnet) E hq fuel h hh hb with ⟨w', cmds, e1, e2⟩ | ⟨w', e1, e2, e3⟩ | ⟨w', s', t, e1, e2, e3, e4, e5, et, _⟩
      · exact .inl ⟨w', cmds, e1, e2⟩
      · exact .inr (.inl ⟨e1, .inl ⟨w', e2, e3⟩⟩)
      · exact .inr (.inr ⟨w', s', t, e1, e2, e3, e4, e5, et⟩)
  | succ k ih =>
    intro fuel s w l h hw
    cases hw with
    | plain hh hb =>
      rcases plain_full (store := store) (stored := stored) (telnet := telnet) E hq (fuel + (k + 1)) h hh hb with ⟨w', cmds, e1, e2⟩ | ⟨w', e1, e2, e3⟩ | ⟨w', s', t, e1, e2, e3, e4, e5, et, _⟩
      · exact .inl ⟨w', cmds, e1, e2⟩
      · exact .inr (.inl ⟨e1, .inl ⟨w', e2, e3⟩⟩)
      · exact .inr (.inr ⟨w', s', t, e1, e2, e3, e4, e5, et⟩)
    | @again _ _ _ n hh hn hdeep =>
      have hb : Bang l := ⟨n, hn⟩
      obtain ⟨a, b1, b2, b3⟩ := id hn
      have nover : ¬ Overflows E (s.recorded l) l := by
        rintro ⟨u, h3, h4⟩
        cases line_same b1 h3
        exact (does_tokens h4).2 _ rfl
      obtain ⟨x, hx, hr, hmode⟩ := at_record h l
      have hf : feed (app E store stored telnet) (fuel + (k + 1) + 1) l w = catchAll (app E store stored telnet) l (body (app E store stored telnet) (feed (app E store stored telnet) (fuel + (k + 1))) l [bs!"!", a] (w.entered x)) := by
        rw [feed_eq (app E store stored telnet) b1 (by simp), hx]
      rw [hf]
      simp only [body, scanGlobal_bang (app E store stored telnet) (feed (app E store stored telnet) (fuel + (k + 1))) (w.entered x) b2 b3]
      by_cases hroom : (s.recorded l).book.entries = []
      · refine .inr (.inl ⟨.empty hb (.inl hroom), .inr ⟨.emptyContainer, ?_⟩⟩)
        have : (w.entered x).hist.buffer = [] := by rw [hr.kept.entries, hroom]; rfl
        simp only [bangPart, History.forgetLatest, this, catchAll]
      · obtain ⟨y, f1, f2⟩ := kept_forget hr.kept hroom
        have f2 : Kept (s.skipped l).book y := f2
        have hyw := (History.forget_wf hr.hist hmode f1).1
        have hat : At (s.skipped l) { (w.entered x).note (.builtin (.bang n)) with hist := y } := ⟨h.tree, h.others, h.color15, h.color16, h.current, h.exit, h.app, h.color, h.escapes, hyw, f2⟩
        simp only [bangPart, f1]
        by_cases he : (s.skipped l).book.first = 0 ∧ (s.skipped l).book.entries = []
        · refine .inr (.inl ⟨.empty hb (.inr he), .inr ⟨.outOfRange, ?_⟩⟩)
          have i1 : y.idOfOldest = 0 := f2.first.trans he.1
          have i2 : y.buffer = [] := by rw [f2.entries, he.2]; rfl
          have e : History.idToIndex y n = some (History.wsub (2 ^ 64 - 1) n) := by
            simp only [History.idToIndex, i1, i2, List.length_nil]
            rw [if_neg (by simp [History.wsub]; omega)]
            rfl
          simp only [History.at, e, i2, List.getElem?_nil, catchAll]
        · have hne : y.idOfOldest + y.buffer.length ≠ 0 := by
            rw [f2.first, f2.entries, List.length_reverse]
            intro hz
            exact he ⟨by omega, List.length_eq_zero_iff.1 (by omega)⟩
          by_cases hc : ∃ c, (n, c) ∈ (s.skipped l).book.listing
          · obtain ⟨c, hc⟩ := hc
            rw [(History.at_listing y hne n c).2 (by rw [kept_listing f2]; exact hc)]
            have ih' := ih fuel hat (hdeep c hc)
            rw [show fuel + k + 1 = fuel + (k + 1) from rfl] at ih'
            simp only
            rcases ih' with ⟨w', cmds, e1, e2, e3⟩ | ⟨e1, e2⟩ | ⟨w', s', t, e1, e2, e3, e4, e5, et⟩
            · rw [e2]
              have lv := e3.2.2.2
              exact .inl ⟨w', cmds, .again hn hc e1, rfl, e3.1, e3.2.1, e3.2.2.1, lv.tree, lv.dis, lv.color, lv.casts, lv.saved⟩
            · rcases e2 with ⟨w', e2, e3⟩ | ⟨u, e2⟩
              · exact .inr (.inl ⟨.again hn hc e1, .inl ⟨w', by simp only [e2, builtinOutcome, catchAll], e3⟩⟩)
              · exact .inr (.inl ⟨.again hn hc e1, .inr ⟨u, by simp only [e2, catchAll]⟩⟩)
            · rw [e2]
              refine .inr (.inr ⟨w', s', t, ?_, rfl, .again hn hc e3, e4, e5, ?_⟩)
              rotate_left
              · obtain ⟨ts, t1, t2, t3⟩ := et
                refine ⟨ts, t1, t2, ?_⟩
                rcases t3 with ⟨t3, t4⟩ | ⟨t, t3, t4⟩
                · refine .inl ⟨t3, fun t h => ?_⟩
                  cases h with
                  | here h1 h2 => cases line_same b1 h1; exact (does_tokens h2).2 _ rfl
                  | again h1 h2 h3 =>
                    cases recalls_same hn h1
                    cases listing_same hc h2
                    exact t4 _ h3
                · exact .inr ⟨t, t3, .again hn hc t4⟩
              · intro hf
                cases hf with
                | sum h => exact nover h
                | again h1 h2 h3 =>
                  cases recalls_same hn h1
                  cases listing_same hc h2
                  exact e1 h3
                | empty _ h => exact h.elim hroom he
          · have hc : ∀ c, (n, c) ∉ (s.skipped l).book.listing := fun c h => hc ⟨c, h⟩
            rw [(History.at_none y hne n).2 (by rw [kept_listing f2]; exact hc)]
            refine .inr (.inr ⟨_, s.skipped l, _, ?_, rfl, .unknown hn hc, ?_, ?_, ⟨[], ?_, rfl, .inl ⟨rfl, fun t h => ?_⟩⟩⟩)
            rotate_left 3
            · simp only [List.append_nil]; rfl
            · cases h with
              | here h1 h2 => cases line_same b1 h1; exact (does_tokens h2).2 _ rfl
              | again h1 h2 => cases recalls_same hn h1; exact hc _ h2
            · intro hf
              cases hf with
              | sum h => exact nover h
              | again h1 h2 h3 =>
                cases recalls_same hn h1
                exact hc _ h2
              | empty _ h => exact h.elim hroom he
            · exact at_note hat (w.io.put _) _ _ rfl
            · simp only [reportException, app, writes, World.effect, World.note, List.foldl_cons, List.foldl_nil, World.act, World.put, Io.put, Reply.text, Exn.what]
              rfl

/-- A line that leads from one line that refers to the history to the next, without end, exhausts the stack. -/
theorem answer_endless : ∀ (fuel : Nat) {s : Seat} {w : W τ} {l : Str}, At s w → Readable E.p l → (∀ c ∈ s.book.entries, Readable E.p c) → (∀ k, ¬ Within E k s l) → feed (app E store stored telnet) fuel l w = .error .stackOverflow
  | 0, _, _, _, _, _, _, _ => rfl
  | fuel + 1, s, w, l, h, hl, hr, hw => by
    have hb : Bang l := Classical.byContradiction fun hb => hw 0 (.plain hl hb)
    obtain ⟨n, hn⟩ := id hb
    obtain ⟨c, hc, hnext⟩ : ∃ c, (n, c) ∈ (s.skipped l).book.listing ∧ ∀ k, ¬ Within E k (s.skipped l) c := by
      refine Classical.byContradiction fun hno => ?_
      by_cases hex : ∃ c, (n, c) ∈ (s.skipped l).book.listing
      · obtain ⟨c, hc⟩ := hex
        obtain ⟨k, hk⟩ : ∃ k, Within E k (s.skipped l) c := Classical.byContradiction fun hk => hno ⟨c, hc, fun k hk' => hk ⟨k, hk'⟩⟩
        exact hw (k + 1) (.again hl hn fun d hd => by cases listing_same hc hd; exact hk)
      · exact hw 1 (.again hl hn fun d hd => absurd ⟨d, hd⟩ hex)
    obtain ⟨a, b1, b2, b3⟩ := id hn
    obtain ⟨x, hx, hrec, hmode⟩ := at_record h l
    have hmem := mem_listing hc
    have hroom : (s.recorded l).book.entries ≠ [] := by
      intro h0
      have : (s.skipped l).book.entries = (s.recorded l).book.entries.dropLast := rfl
      rw [this, h0] at hmem
      cases hmem
    rw [feed_eq (app E store stored telnet) b1 (by simp), hx]
    simp only [body, scanGlobal_bang (app E store stored telnet) (feed (app E store stored telnet) fuel) (w.entered x) b2 b3]
    obtain ⟨y, f1, f2⟩ := kept_forget hrec.kept hroom
    have f2 : Kept (s.skipped l).book y := f2
    have hyw := (History.forget_wf hrec.hist hmode f1).1
    have hat : At (s.skipped l) { (w.entered x).note (.builtin (.bang n)) with hist := y } := ⟨h.tree, h.others, h.color15, h.color16, h.current, h.exit, h.app, h.color, h.escapes, hyw, f2⟩
    have hne : y.idOfOldest + y.buffer.length ≠ 0 := by
      rw [f2.first, f2.entries, List.length_reverse]
      intro hz
      rw [List.length_eq_zero_iff.1 (show (s.skipped l).book.entries.length = 0 by omega)] at hmem
      cases hmem
    have next := answer_endless fuel hat (hr c (mem_skipped hmem)) (fun d hd => hr d (mem_skipped hd)) hnext
    simp only [bangPart, f1, (History.at_listing y hne n c).2 (by rw [kept_listing f2]; exact hc), next, catchAll]

/-- **What one line does.** -/
theorem answer_full (hq : Quiet E) (fuel : Nat) {s : Seat} {w : W τ} {l : Str} (h : At s w) (hw : Within E fuel s l) :
    (∃ w' cmds, Saves s l cmds ∧ feed (app E store stored telnet) (fuel + 1) l w = .ok (w', none) ∧ w'.io.out = w.io.out ++ farewell telnet ∧ w'.exit = true ∧ w'.app = ⟨!telnet, false⟩ ∧ Leaves store cmds w w') ∨
    (Fails E s l ∧ ((∃ w', feed (app E store stored telnet) (fuel + 1) l w = .ok (w', none) ∧ w'.app.ub = true) ∨ ∃ u, feed (app E store stored telnet) (fuel + 1) l w = .error (.ub u))) ∨
    (∃ w' s' t, ¬ Fails E s l ∧ feed (app E store stored telnet) (fuel + 1) l w = .ok (w', none) ∧ Answer E s l s' t ∧ At s' w' ∧ w'.io.out = w.io.out ++ t ∧ Told E s l w w') := by
  have deep := answer_deep (store := store) (stored := stored) (telnet := telnet) E hq fuel 0 h hw
  rwa [Nat.zero_add] at deep

/-- What one line does, as far as its own session is concerned. -/
theorem answer_step (hq : Quiet E) (fuel : Nat) {s : Seat} {w : W τ} {l : Str} (h : At s w) (hw : Within E fuel s l) :
    (∃ w', Quits s l ∧ feed (app E store stored telnet) (fuel + 1) l w = .ok (w', none) ∧ w'.io.out = w.io.out ++ farewell telnet ∧ w'.exit = true ∧ w'.app = ⟨!telnet, false⟩) ∨
    (Fails E s l ∧ ((∃ w', feed (app E store stored telnet) (fuel + 1) l w = .ok (w', none) ∧ w'.app.ub = true) ∨ ∃ u, feed (app E store stored telnet) (fuel + 1) l w = .error (.ub u))) ∨
    (∃ w' s' t, ¬ Fails E s l ∧ feed (app E store stored telnet) (fuel + 1) l w = .ok (w', none) ∧ Answer E s l s' t ∧ At s' w' ∧ w'.io.out = w.io.out ++ t) := by
  rcases answer_full (store := store) (stored := stored) (telnet := telnet) E hq fuel h hw with ⟨w', _, e1, e2, e3, e4, e5, _⟩ | e | ⟨w', s', t, e1, e2, e3, e4, e5, _⟩
  · exact .inl ⟨w', saves_quits e1, e2, e3, e4, e5⟩
  · exact .inr (.inl e)
  · exact .inr (.inr ⟨w', s', t, e1, e2, e3, e4, e5⟩)

theorem prompt_says {s : Seat} {w : W τ} (h : At s w) : ∃ w', prompt w = .ok w' ∧ At s.prompted w' ∧ w'.io.out = w.io.out ++ s.prompt := by
  have hp : ∃ m k q, path s.gone s.place = (m, k) :: q ∧ m.prompt = s.place.prompt := by cases s.place <;> exact ⟨_, _, _, rfl, rfl⟩
  obtain ⟨m, k, q, e1, e2⟩ := hp
  have e : w.tree.locate w.current = some ((m, k) :: q) := by rw [h.tree, h.current, locate_place, e1]
  have e3 : decimal 32 = bs!"32" := by decide +kernel
  have e4 : decimal 1 = bs!"1" := by decide +kernel
  have e5 : decimal 0 = bs!"0" := by decide +kernel
  refine ⟨{ w with io := (((w.io.beforePrompt).put m.prompt).afterPrompt).put bs!"> " }, by simp only [prompt, h.exit, Bool.false_eq_true, if_false, e], ⟨h.tree, h.others, h.color15, h.color16, h.current, h.exit, h.app, ?_, ?_, h.hist, h.kept⟩, ?_⟩
  all_goals
    have hc := h.color
    have hx := h.escapes
    unfold Seat.prompted at *
    revert hc hx
    obtain ⟨⟨c, t, f⟩, out⟩ := w.io
    intro hc hx
    simp only at hc hx
    simp only [Seat.prompt, ← hc, ← hx]
    cases c <;> cases t <;> cases f <;> simp [Io.beforePrompt, Io.afterPrompt, Io.put, Io.force, Io.sgr, Seat.prompt, e2, e3, e4, e5]

theorem prompt_quiet {w w' : W τ} (h : prompt w = .ok w') : w'.casts = w.casts ∧ w'.storage = w.storage := by
  unfold prompt at h
  split at h
  · cases h; exact ⟨rfl, rfl⟩
  · split at h
    · cases h; exact ⟨rfl, rfl⟩
    · cases h

/-! ### A session -/

/-- After some of the lines, what the next does is undefined, or it ends the session, or it leads through more than so many lines that refer to the history. -/
def Breaks (E : Env) (depth : Nat) (s : Seat) (ls : List Str) : Prop := ∃ a l b s' o, ls = a ++ l :: b ∧ Output E s a s' o ∧ (Fails E s' l ∨ Quits s' l ∨ ¬ Within E depth s' l)

theorem typed_says (hq : Quiet E) (fuel : Nat) : ∀ (ls : List Str) (s : Seat) (w : W τ), At s w → ¬ Breaks E fuel s ls →
    ∃ w' s' o, typed (app E store stored telnet) (fuel + 1) ls w = .ok (w', none) ∧ Output E s ls s' o ∧ At s' w' ∧ w'.io.out = w.io.out ++ o ∧ w'.storage = w.storage
  | [], s, w, h, _ => ⟨w, s, [], rfl, .nil, h, by simp, rfl⟩
  | l :: ls, s, w, h, hb => by
    have hw : Within E fuel s l := Classical.byContradiction fun hw => hb ⟨[], l, ls, s, [], rfl, .nil, .inr (.inr hw)⟩
    rcases answer_full (store := store) (stored := stored) (telnet := telnet) E hq fuel h hw with ⟨w1, _, e1, _⟩ | ⟨e1, _⟩ | ⟨w1, s1, t, _, e3, e4, e5, e6, ⟨_, _, e8, _⟩⟩
    · exact absurd ⟨[], l, ls, s, [], rfl, .nil, .inr (.inl (saves_quits e1))⟩ hb
    · exact absurd ⟨[], l, ls, s, [], rfl, .nil, .inl e1⟩ hb
    · obtain ⟨w2, p1, p2, p3⟩ := prompt_says e5
      obtain ⟨w', s', o, g1, g2, g3, g4, g6⟩ := typed_says hq fuel ls s1.prompted w2 p2 (by
        rintro ⟨a, x, b, s', o, rfl, k1, k2⟩
        exact hb ⟨l :: a, x, b, s', _, rfl, .line e4 k1, k2⟩)
      refine ⟨w', s', t ++ s1.prompt ++ o, ?_, .line e4 g2, g3, ?_, by rw [g6, (prompt_quiet p1).2, e8]⟩
      · simp only [typed, e3, p1, g1]
      · rw [g4, p3, e6]; simp

theorem load_commands : ∀ (cmds : List Str) (h : History.History), (History.loadCommands h cmds).commands = h.commands
  | [], _ => rfl
  | c :: cmds, h => by
    show (History.loadCommands (History.insert h c) cmds).commands = _
    rw [load_commands cmds]
    unfold History.insert
    dsimp only
    split <;> rfl

/-- A session starts with what was entered in earlier ones. -/
theorem kept_start (n : Nat) (cmds : List Str) : Kept (Book.open n cmds) (History.loadCommands (History.init n) cmds) := by
  obtain ⟨_, h1, h2, h3⟩ := C33_new_session_ready n cmds
  refine ⟨h1, h2, ?_, by rw [h3]; rfl, load_commands cmds _⟩
  have key : ∀ (cmds : List Str) (h : History.History), History.nextId (History.loadCommands h cmds) = History.nextId h + cmds.length := by
    intro cmds
    induction cmds with
    | nil => intro h; rfl
    | cons c cmds ih =>
      intro h
      show History.nextId (History.loadCommands (History.insert h c) cmds) = _
      rw [ih, History.insert_nextId, List.length_cons]; omega
  have := key cmds (History.init n)
  simp only [History.nextId, h3, List.length_reverse, length_lastN] at this
  simp only [show (History.init n).idOfOldest = 0 from rfl, show (History.init n).buffer = [] from rfl, List.length_nil] at this
  show _ = cmds.length - n
  omega

theorem at_start (n : Nat) (tty : Bool) (st : τ) : At (Seat.start tty (Book.open n (stored st))) (session E store stored telnet n tty st) :=
  ⟨rfl, fun i _ h => by show (i == 16) = false; simpa using h, fun _ => rfl, fun _ => rfl, rfl, rfl, rfl, rfl, by cases tty <;> rfl, (C33_new_session_ready n (stored st)).1, kept_start n (stored st)⟩

end

/-- **C113** (partial) What a session of the program `complete` answers to lines is what the table of commands and the history say, line by line; nothing is saved. Missing: lines for which the behaviour is undefined, as they ask for a sum that is too large or refer to a
    history that is empty (`C113_undefined`) or make the conversion of an argument undefined (`C113_refuted`); or that execute each other again without end, or more often than the stack has room for (C25). Reading a `Bar` or a complex number is assumed not to throw. -/
theorem C113_session_partial (E : Env) (hq : Quiet E) (store : τ → List Str → τ) (stored : τ → List Str) (telnet tty : Bool) (n fuel : Nat) (st : τ) (ls : List Str)
    (hb : ¬ Breaks E fuel (Seat.start tty (Book.open n (stored st))) ls) :
    ∃ w', typed (app E store stored telnet) (fuel + 1) ls (session E store stored telnet n tty st) = .ok (w', none) ∧ w'.exit = false ∧ w'.app = ⟨false, false⟩ ∧ w'.storage = st ∧
      ∀ o, w'.io.out = o ↔ ∃ s', Output E (Seat.start tty (Book.open n (stored st))) ls s' o := by
  obtain ⟨w', s', o, h1, h2, h3, h4, h6⟩ := typed_says (store := store) (stored := stored) (telnet := telnet) E hq fuel ls _ _ (at_start (store := store) (stored := stored) (telnet := telnet) E n tty st) hb
  refine ⟨w', h1, h3.exit, h3.app, h6, fun x => ?_⟩
  have h4 : w'.io.out = o := h4
  rw [h4]
  constructor
  · rintro rfl; exact ⟨s', h2⟩
  · rintro ⟨s2, h⟩; exact (output_unique h2 h).2

/-- **C113** (partial) A line that ends the session (`exit`, or one that executes it again) then writes the messages of the session and of the program; the local session stops the program, that of a client does not. The latest lines are saved, as many as have been entered in the session. -/
theorem C113_exit_partial (E : Env) (hq : Quiet E) (store : τ → List Str → τ) (stored : τ → List Str) (telnet tty : Bool) (n fuel : Nat) (st : τ) (ls : List Str) (l : Str) (s' : Seat) (o : Str)
    (hb : ¬ Breaks E fuel (Seat.start tty (Book.open n (stored st))) ls)
    (ho : Output E (Seat.start tty (Book.open n (stored st))) ls s' o) (hx : Quits s' l) (hw : Within E fuel s' l) :
    ∃ w' cmds, typed (app E store stored telnet) (fuel + 1) (ls ++ [l]) (session E store stored telnet n tty st) = .ok (w', none) ∧ w'.io.out = o ++ farewell telnet ∧ w'.exit = true ∧ (w'.app.stopped = true ↔ telnet = false) ∧
      Saves s' l cmds ∧ w'.storage = store st cmds := by
  obtain ⟨w1, s1, o1, h1, h2, h3, h4, h6⟩ := typed_says (store := store) (stored := stored) (telnet := telnet) E hq fuel ls _ _ (at_start (store := store) (stored := stored) (telnet := telnet) E n tty st) hb
  obtain ⟨rfl, rfl⟩ := output_unique ho h2
  have happ : ∀ (ls : List Str) (w : W τ), typed (app E store stored telnet) (fuel + 1) ls w = .ok (w1, none) → typed (app E store stored telnet) (fuel + 1) (ls ++ [l]) w = typed (app E store stored telnet) (fuel + 1) [l] w1 := by
    intro ls
    induction ls with
    | nil => intro w h; cases h; rfl
    | cons a ls ih =>
      intro w h
      simp only [typed] at h
      simp only [typed, List.cons_append]
      rcases hf : feed (app E store stored telnet) (fuel + 1) a w with f | ⟨w2, _ | e⟩
      · rw [hf] at h; cases h
      · rw [hf] at h
        simp only at h ⊢
        cases hp : prompt w2 with
        | error f => rw [hp] at h; cases h
        | ok w3 => rw [hp] at h; simp only at h ⊢; rw [ih w3 h]; simp only [typed]
      · rw [hf] at h; cases h
  rcases answer_full (store := store) (stored := stored) (telnet := telnet) E hq fuel h3 hw with ⟨w2, cmds, e1, e2, e3, e4, e5, e6⟩ | ⟨e1, _⟩ | ⟨_, _, _, _, _, e1, _⟩
  · refine ⟨w2, cmds, ?_, ?_, e4, by rw [e5]; cases telnet <;> simp, e1, by rw [e6.saved, h6]; rfl⟩
    · rw [happ ls _ h1]
      simp only [typed, e2, prompt, e4, if_true]
    · rw [e3, h4]; rfl
  · exact absurd hx (fails_no_quit e1)
  · exact absurd hx (answer_no_quit e1)

/-- **C113** (refuted, in general) A line that asks for a sum that is too large, refers to a history that is empty, or executes again a line that does so makes the behaviour of the program undefined. -/
theorem C113_undefined (E : Env) (hq : Quiet E) (store : τ → List Str → τ) (stored : τ → List Str) (telnet tty : Bool) (n fuel : Nat) (st : τ) (ls : List Str) (l : Str) (s' : Seat) (o : Str)
    (hb : ¬ Breaks E fuel (Seat.start tty (Book.open n (stored st))) ls)
    (ho : Output E (Seat.start tty (Book.open n (stored st))) ls s' o) (hx : Fails E s' l) (hw : Within E fuel s' l) :
    ∃ w1, typed (app E store stored telnet) (fuel + 1) ls (session E store stored telnet n tty st) = .ok (w1, none) ∧ w1.app.ub = false ∧
      ((∃ w2, feed (app E store stored telnet) (fuel + 1) l w1 = .ok (w2, none) ∧ w2.app.ub = true) ∨ ∃ u, feed (app E store stored telnet) (fuel + 1) l w1 = .error (.ub u)) := by
  obtain ⟨w1, s1, o1, h1, h2, h3, h4, _⟩ := typed_says (store := store) (stored := stored) (telnet := telnet) E hq fuel ls _ _ (at_start (store := store) (stored := stored) (telnet := telnet) E n tty st) hb
  obtain ⟨rfl, rfl⟩ := output_unique ho h2
  rcases answer_step (store := store) (stored := stored) (telnet := telnet) E hq fuel h3 hw with ⟨_, e1, _⟩ | ⟨_, e2⟩ | ⟨_, _, _, e1, _⟩
  · exact absurd e1 (fails_no_quit hx)
  · exact ⟨w1, h1, by rw [h3.app], e2⟩
  · exact absurd hx e1

/-- **C113** (refuted, in general) A line that leads from one line that refers to the history to the next, without end, exhausts the stack, however large it is. -/
theorem C113_endless (E : Env) (hq : Quiet E) (store : τ → List Str → τ) (stored : τ → List Str) (telnet tty : Bool) (n fuel : Nat) (st : τ) (ls : List Str) (l : Str) (s' : Seat) (o : Str)
    (hb : ¬ Breaks E fuel (Seat.start tty (Book.open n (stored st))) ls) (ho : Output E (Seat.start tty (Book.open n (stored st))) ls s' o)
    (hl : Readable E.p l) (hr : ∀ c ∈ s'.book.entries, Readable E.p c) (hx : ∀ k, ¬ Within E k s' l) :
    ∃ w1, typed (app E store stored telnet) (fuel + 1) ls (session E store stored telnet n tty st) = .ok (w1, none) ∧ feed (app E store stored telnet) (fuel + 1) l w1 = .error .stackOverflow := by
  obtain ⟨w1, s1, o1, h1, h2, h3, _⟩ := typed_says (store := store) (stored := stored) (telnet := telnet) E hq fuel ls _ _ (at_start (store := store) (stored := stored) (telnet := telnet) E n tty st) hb
  obtain ⟨rfl, rfl⟩ := output_unique ho h2
  exact ⟨w1, h1, answer_endless E _ h3 hl hr hx⟩

/-- A platform and texts to try the program with: a `Bar` and a complex number are one digit. -/
def one : Env := { p := { plat with extract := fun _ s => .ok (match s with | c :: _ => if isDigit c then some (c.toNat, 1) else none | [] => none) }, bar := fun v => [UInt8.ofNat v], complex := fun v => bs!"(" ++ [UInt8.ofNat v] ++ bs!",0)" }

/-- A session of it. -/
def try_ (telnet tty : Bool) (ls : List Str) : Except Fault (W Unit × Option Exn) := typed (app one (fun _ _ => ()) (fun _ => []) telnet) 2 ls (session one (fun _ _ => ()) (fun _ => []) telnet 200 tty ())

/-- What can be seen of it. -/
def seen (x : Except Fault (W Unit × Option Exn)) : Option (Str × Bool × St) := match x with | .ok (w, none) => some (w.io.out, w.exit, w.app) | _ => none

/-- What is saved by `exit`: as many lines as have been entered; and so, if a line is repeated, a line of an earlier session is saved again. -/
example : Saves ((Seat.start false (Book.open 9 [bs!"older", bs!"old"])).recorded bs!"hello") bs!"exit" [bs!"hello", bs!"exit"] ∧
    Saves (((Seat.start false (Book.open 9 [bs!"older", bs!"old"])).recorded bs!"hello").recorded bs!"hello") bs!"exit" [bs!"old", bs!"hello", bs!"exit"] :=
  ⟨.exit ((split_iff _ _).1 rfl), .exit ((split_iff _ _).1 rfl)⟩

/-- **C113** (refuted) The behaviour is undefined for `add 2147483647 1`; for `answer -5`, where overflow of `int` is undefined (the conversion, C06); and for `answer` with a character that is negative, for which `isdigit` is. -/
theorem C113_refuted :
    seen (try_ false false [bs!"add 2147483647 1"]) = some (bs!"cli> ", false, ⟨false, true⟩) ∧
    (let E := { one with p := { one.p with strictOverflow := true } }
     typed (app E (fun _ _ => ()) (fun _ => []) false) 2 [bs!"answer -5"] (session E (fun _ _ => ()) (fun _ => []) false 200 false ()) = .error (.ub .signedOverflow)) ∧
    try_ false false [bs!"answer " ++ [200]] = .error (.ub .ctype) := ⟨by decide +kernel, rfl, rfl⟩

theorem quiet_one : Quiet one := by intro k a e h; cases h

/-- What a local session writes. -/
example : seen (try_ false true [bs!"color", bs!"sub hello", bs!"sub", bs!"demo 1", bs!"subsub", bs!"sub ../removecmds", bs!".. .. add 2 40", bs!".. .. add -1 0 +7", bs!"exit"]) = some
    (bs!"Colors ON\n\x1b[32m\x1b[1mcli\x1b[0m> Hello, submenu world\n\x1b[32m\x1b[1mcli\x1b[0m> \x1b[32m\x1b[1msubmenu\x1b[0m> Unknown command or incorrect parameters: demo 1.\n\x1b[32m\x1b[1msubmenu\x1b[0m> \x1b[32m\x1b[1msubsub\x1b[0m> Unknown command or incorrect parameters: sub ../removecmds.\n\x1b[32m\x1b[1msubsub\x1b[0m> 2 + 40 = 42\n\x1b[32m\x1b[1msubsub\x1b[0m> -1 + 0 + 7 = 6\n\x1b[32m\x1b[1msubsub\x1b[0m> Closing App...\nGoodbye and thanks for all the fish.\n", true, ⟨true, false⟩) := by
  decide +kernel

/-- What that of a client writes. -/
example : seen (try_ true false [bs!"error", bs!"bar 7", bs!"complex 3", bs!"bar x", bs!"echo 'a b' c", bs!"reverse abc", bs!"removecmds", bs!"color", bs!"exit"]) = some
    (bs!"Exception caught in CLI handler: Error in cmd while handling command: error.\ncli> You entered bar: 7\ncli> You entered complex : (3,0)\ncli> Unknown command or incorrect parameters: bar x.\ncli> a b c\ncli> cba\ncli> cli> Unknown command or incorrect parameters: color.\ncli> Terminating this session...\nGoodbye and thanks for all the fish.\n", true, ⟨false, false⟩) := by
  decide +kernel

theorem harmless_one {l : Str} (h : l.all (fun c => plat.ctypeUB c == false) = true) : Harmless one.p l := Script.harmless_of h

/-- A line that is in the table does not ask for a sum that is too large. -/
theorem not_over {E : Env} {s : Seat} {l : Str} {toks : List Str} {r : Reply} (h : Lex.Line l toks) (hd : Does E s s.place toks r) (hr : r ≠ .undefined) : ¬ Overflows E s l := by
  rintro ⟨u, h1, h2⟩
  cases line_same h h1
  exact hr (C113_table hd h2)

theorem breaks_cons {E : Env} {depth : Nat} {s s' : Seat} {l t : Str} {ls : List Str} (h1 : Answer E s l s' t) (h2 : ¬ Fails E s l) (hw : Within E depth s l) (h3 : ¬ Breaks E depth s'.prompted ls) : ¬ Breaks E depth s (l :: ls) := by
  rintro ⟨a, x, b, s2, o, e, ho, hx⟩
  cases a with
  | nil =>
    cases e
    cases ho
    exact hx.elim h2 fun hx => hx.elim (answer_no_quit h1) fun hx => hx hw
  | cons y a =>
    cases e
    cases ho with
    | line g1 g2 =>
      obtain ⟨rfl, rfl⟩ := answer_unique h1 g1
      exact h3 ⟨a, x, b, s2, _, rfl, g2, hx⟩

theorem breaks_nil {E : Env} {depth : Nat} {s : Seat} : ¬ Breaks E depth s [] := by rintro ⟨a, x, b, s', o, e, _⟩; simp at e

/-- A line of the table. -/
theorem reverse_answer {s : Seat} (hs : s.place = .root) : Answer one s bs!"reverse abc" (s.recorded bs!"reverse abc") bs!"cba\n" ∧ ¬ Fails one s bs!"reverse abc" := by
  have hl : Lex.Line bs!"reverse abc" [bs!"reverse", bs!"abc"] := (split_iff _ _).1 rfl
  have hd : Does one (s.recorded bs!"reverse abc") (s.recorded bs!"reverse abc").place [bs!"reverse", bs!"abc"] (.says bs!"cba\n") := by
    rw [show (s.recorded bs!"reverse abc").place = .root from hs]
    exact .here (does := fun args x => ∃ a, args = [a] ∧ x = .says (a.reverse ++ bs!"\n")) (by simp [rows]) ⟨_, rfl, rfl⟩
  have hn : ¬ Bang bs!"reverse abc" := by
    rintro ⟨n, a, h, _⟩
    exact absurd (congrArg List.head? (line_same hl h)) (by simp)
  refine ⟨.line (.does hl hd (by simp)), fun h => ?_⟩
  cases h with
  | sum h => exact not_over hl hd (by simp) h
  | again h => exact hn ⟨_, h⟩
  | empty h => exact hn h

/-- A session with room for 200 lines, in which nothing has been entered. -/
def fresh (tty : Bool) : Seat := Seat.start tty (Book.open 200 [])

theorem recalls_one : Recalls bs!"! 0" 0 := ⟨bs!"0", (split_iff _ _).1 rfl, ⟨bs!"0", .inl rfl, ⟨by decide, by unfold Number.Digit; decide⟩, by decide⟩, by decide⟩

theorem listed : (0, bs!"reverse abc") ∈ (((fresh true).recorded bs!"reverse abc").prompted.skipped bs!"! 0").book.listing := by decide +kernel

/-- When the first line has been executed again. -/
def twice : Seat := (((fresh true).recorded bs!"reverse abc").prompted.skipped bs!"! 0").recorded bs!"reverse abc"

/-- The first line again. -/
theorem again_answer : Answer one ((fresh true).recorded bs!"reverse abc").prompted bs!"! 0" twice bs!"cba\n" ∧ ¬ Fails one ((fresh true).recorded bs!"reverse abc").prompted bs!"! 0" := by
  obtain ⟨h1, h2⟩ := reverse_answer (s := ((fresh true).recorded bs!"reverse abc").prompted.skipped bs!"! 0") rfl
  refine ⟨?_, fun h => ?_⟩
  · have := Answer.again recalls_one listed h1
    exact this
  · cases h with
    | sum h =>
      obtain ⟨a, ha, _⟩ := recalls_one
      obtain ⟨u, h3, h4⟩ := h
      cases line_same ha h3
      exact (does_tokens h4).2 _ rfl
    | again h3 h4 h5 =>
      cases recalls_same recalls_one h3
      cases listing_same listed h4
      exact h2 h5
    | empty _ h =>
      rcases h with h | ⟨_, h⟩
      · exact absurd h (by decide +kernel)
      · exact absurd h (by decide +kernel)

theorem reverse_not_bang : ¬ Bang bs!"reverse abc" := by
  rintro ⟨n, a, h, _⟩
  exact absurd (congrArg List.head? (line_same ((split_iff bs!"reverse abc" [bs!"reverse", bs!"abc"]).1 rfl) h)) (by simp)

/-- A line of the table, and that line again. -/
theorem reverse_within {depth : Nat} {s : Seat} : Within one depth s bs!"reverse abc" := .plain (harmless_one (by decide)) reverse_not_bang

theorem again_within {depth : Nat} : Within one (depth + 1) ((fresh true).recorded bs!"reverse abc").prompted bs!"! 0" :=
  .again (harmless_one (by decide)) recalls_one fun c hc => by cases listing_same listed hc; exact reverse_within

/-- The hypotheses of `C113_session_partial` are satisfiable, with a line of the table, that line again, and the history. -/
example : ¬ Breaks one 1 (fresh true) [bs!"reverse abc", bs!"! 0", bs!"history"] ∧
    ∃ s', Output one (fresh true) [bs!"reverse abc", bs!"! 0", bs!"history"] s' bs!"cba\ncli\x1b[0m> cba\ncli\x1b[0m> \n0\treverse abc\n1\thistory\n\ncli\x1b[0m> " := by
  have hh : Lex.Line bs!"history" [bs!"history"] := (split_iff _ _).1 rfl
  obtain ⟨a1, a2⟩ := reverse_answer (s := fresh true) rfl
  obtain ⟨b1, b2⟩ := again_answer
  have nf : ¬ Fails one twice.prompted bs!"history" := by
    intro h
    cases h with
    | sum h => obtain ⟨u, h3, h4⟩ := h; cases line_same hh h3; exact (does_tokens h4).1 (by simp)
    | again h => exact (recalls_kind h).2.1 hh
    | empty h => obtain ⟨_, h⟩ := h; exact (recalls_kind h).2.1 hh
  refine ⟨breaks_cons a1 a2 reverse_within (breaks_cons b1 b2 again_within (breaks_cons (.history hh) nf (.plain (harmless_one (by decide)) fun ⟨_, h⟩ => (recalls_kind h).2.1 hh) breaks_nil)), ?_⟩
  · have e : HistoryList.render (twice.prompted.recorded bs!"history").book.listing = bs!"\n0\treverse abc\n1\thistory\n\n" := by decide +kernel
    have h3 := Answer.history (E := one) (s := twice.prompted) hh
    rw [e] at h3
    exact ⟨_, .line a1 (.line b1 (.line h3 .nil))⟩

/-- This is what such a session writes. With `! 1`, there is no such line; `! 0` in a new session is undefined. -/
example : seen (try_ false true [bs!"reverse abc", bs!"! 0", bs!"history", bs!"! 7", bs!"exit"]) = some
      (bs!"cba\ncli\x1b[0m> cba\ncli\x1b[0m> \n0\treverse abc\n1\thistory\n\ncli\x1b[0m> Exception caught in CLI handler: Index not found in history while handling command: ! 7.\ncli\x1b[0m> Closing App...\nGoodbye and thanks for all the fish.\n", true, ⟨true, false⟩) ∧
    seen (try_ false true [bs!"! 0"]) = none := by
  decide +kernel

/-- The hypotheses of `C113_undefined` are satisfiable: a sum, and an empty history. -/
example : Fails one (fresh false) bs!"add 2147483647 1" ∧ Fails one (fresh false) bs!"! 0" := by
  refine ⟨.sum ⟨[bs!"add", bs!"2147483647", bs!"1"], (split_iff _ _).1 rfl, .here (does := sum2) (by simp [rows, fresh, Seat.recorded, Seat.start]) ⟨_, _, 2147483647, 1, rfl, ⟨?_, by unfold Small; decide⟩, ⟨?_, by unfold Small; decide⟩, .inr ⟨by unfold Small; decide, rfl⟩⟩⟩,
    .empty ⟨0, recalls_one⟩ (.inr (by decide +kernel))⟩
  · exact ⟨_, ⟨by decide, by unfold Number.Digit; decide⟩, .inl ⟨rfl, by decide⟩⟩
  · exact ⟨_, ⟨by decide, by unfold Number.Digit; decide⟩, .inl ⟨rfl, by decide⟩⟩

/-- The hypotheses of `C113_exit_partial` are satisfiable: `exit`, and an `exit` of an earlier session again. -/
example : Quits (fresh false) bs!"exit" ∧ Quits (Seat.start false (Book.open 200 [bs!"exit"])) bs!"! 0" :=
  ⟨.exit ((split_iff _ _).1 rfl), .again (c := bs!"exit") recalls_one (by decide +kernel) (.exit ((split_iff _ _).1 rfl))⟩

/-- A session after some others, in which `! 0` and `hello` were entered. -/
def haunted (m : Nat) : Seat := { Seat.start false (Book.open 200 [bs!"! 0", bs!"hello"]) with book := ⟨200, 0, [bs!"! 0", bs!"hello"], m⟩ }

/-- The hypotheses of `C113_endless` are satisfiable: in that session `! 0` is `! 0`. -/
example : Seat.start false (Book.open 200 [bs!"! 0", bs!"hello"]) = haunted 0 ∧ Readable one.p bs!"! 0" ∧ (∀ c ∈ (haunted 0).book.entries, Readable one.p c) ∧ ∀ k, ¬ Within one k (haunted 0) bs!"! 0" := by
  have gen : ∀ k m, ¬ Within one k (haunted m) bs!"! 0" := by
    intro k
    induction k with
    | zero => intro m h; cases h with | plain _ h => exact h ⟨0, recalls_one⟩
    | succ k ih =>
      intro m h
      cases h with
      | plain _ h => exact h ⟨0, recalls_one⟩
      | again _ hn h =>
        cases recalls_same hn recalls_one
        rw [show (haunted m).skipped bs!"! 0" = haunted (m + 1) from rfl] at h
        exact ih (m + 1) (h bs!"! 0" (show (0, bs!"! 0") ∈ [(0, bs!"! 0"), (1, bs!"hello")] by simp))
  refine ⟨rfl, harmless_one (by decide), fun c hc => ?_, fun k => gen k 0⟩
  have hc : c ∈ [bs!"! 0", bs!"hello"] := hc
  simp only [List.mem_cons, List.not_mem_nil, or_false] at hc
  rcases hc with rfl | rfl <;> exact harmless_one (by decide)

end Verif.Showcase
