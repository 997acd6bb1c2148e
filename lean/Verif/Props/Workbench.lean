import Verif.Proofs.Workbench
import Verif.Props.Screenplay

set_option linter.unusedSimpArgs false

/-!
# C135: the plugin manager, from the keyboard to the screen
-/

namespace Verif.Workbench
open Spec
open Terminal (Key)
open Keyboard (decode)
open Plugins (Plug Item Fn rootInfo rootKids)
open Plugged (PWorld Offers kidsOf rootKids_text kidsOf_text heading)
open Showcase (Book Bang Readable Recalls IsInt Small Shows Dictionary enter keyOf keys_printable Plainly plainly_enter decode_plainly Goes goes_handled goes_run handled_typed prefix_line enter_inj recalls_same recalls_kind listing_same
  mem_listing kept_record kept_forget kept_listing kept_start isInt_same shows_same dictionary_antisymm pairwise_mem)
open Script (line_same harmless_fine)
open Props (plat decode_append enterLine InTurn inTurn_run inTurn_create program_rest Moves)

variable {α : Type}

/-! ### The table is unambiguous -/

/-- A row says at most one thing. -/
def Single (does : List Str → Reply → Prop) : Prop := ∀ a r r', does a r → does a r' → r = r'

theorem single_plain (r : Reply) : Single (plain r) := fun _ _ _ h1 h2 => h1.2.trans h2.2.symm

theorem single_calc2 (op : Int → Int → Int) (sign : Str) : Single (calc2 op sign) := by
  rintro _ _ _ ⟨a, b, i, j, rfl, h1, h2, h⟩ ⟨a', b', i', j', e, h3, h4, h'⟩
  cases e
  cases isInt_same h1 h3
  cases isInt_same h2 h4
  rcases h with ⟨hs, d, e, s, g1, g2, g3, rfl⟩ | ⟨hs, rfl⟩ <;> rcases h' with ⟨hs', d', e', s', g1', g2', g3', rfl⟩ | ⟨hs', rfl⟩
  · rw [shows_same g1 g1', shows_same g2 g2', shows_same g3 g3']
  · exact absurd hs hs'
  · exact absurd hs' hs
  · rfl

theorem single_sum3 : Single sum3 := by
  rintro _ _ _ ⟨a, b, c, i, j, k, rfl, h1, h2, h5, h⟩ ⟨a', b', c', i', j', k', e, h3, h4, h6, h'⟩
  cases e
  cases isInt_same h1 h3
  cases isInt_same h2 h4
  cases isInt_same h5 h6
  rcases h with ⟨hs, ht, d, e, f, s, g1, g2, g3, g4, rfl⟩ | ⟨hs, rfl⟩ <;> rcases h' with ⟨hs', ht', d', e', f', s', g1', g2', g3', g4', rfl⟩ | ⟨hs', rfl⟩
  · rw [shows_same g1 g1', shows_same g2 g2', shows_same g3 g3', shows_same g4 g4']
  · exact absurd ⟨hs, ht⟩ hs'
  · exact absurd ⟨hs', ht'⟩ hs
  · rfl

theorem single_sort : Single sort := by
  rintro a _ _ ⟨l, p1, q1, rfl⟩ ⟨l', p2, q2, rfl⟩
  rw [(p1.trans p2.symm).eq_of_pairwise (fun a b _ _ => dictionary_antisymm) q1 q2]

theorem single_one (f : Str → Reply) : Single (fun args x => ∃ a, args = [a] ∧ x = f a) := by
  rintro _ _ _ ⟨a, rfl, rfl⟩ ⟨b, e, rfl⟩
  cases e; rfl

theorem called_inj {p q : Plug} (h : called p = called q) : p = q := by
  cases p <;> cases q <;> first | rfl | (revert h; decide)

theorem rows_single (b : Bool) (s : Desk) (pl : Place) : ∀ row ∈ rows b s pl, Single row.2 := by
  have cond : ∀ (p : Prop) r, Single (fun args x => p ∧ plain r args x) := fun p r a x y h1 h2 => single_plain r a x y h1.2 h2.2
  intro row h
  rcases pl with _ | _ | _
  · simp only [rows, List.mem_cons, List.not_mem_nil, or_false] at h
    rcases h with h | h | h | h | h | h <;> rw [h]
    · exact single_plain _
    · exact single_plain _
    · rintro _ _ _ ⟨a, rfl, h1⟩ ⟨a', e, h2⟩
      cases e
      rcases h1 with ⟨p, rfl, rfl⟩ | ⟨h1, rfl⟩ <;> rcases h2 with ⟨q, e, rfl⟩ | ⟨h2, rfl⟩
      · cases called_inj e; rfl
      · exact absurd rfl (h2 p)
      · exact absurd e (h1 q)
      · rfl
    · exact single_one _
    · exact cond _ _
    · exact cond _ _
  · simp only [rows, List.mem_cons, List.not_mem_nil, or_false] at h
    rcases h with h | h | h <;> rw [h]
    · exact single_calc2 _ _
    · exact single_sum3
    · exact single_calc2 _ _
  · simp only [rows, List.mem_cons, List.not_mem_nil, or_false] at h
    rcases h with h | h | h <;> rw [h]
    · exact single_one fun a => .says (a.reverse ++ bs!"\n")
    · exact single_one fun a => .says (a.map capital ++ bs!"\n")
    · exact single_sort

/-- Different rows have different names, or are for different numbers of arguments. -/
theorem rows_apart (b : Bool) (s : Desk) (pl : Place) : (rows b s pl).Pairwise (fun x y => x.1 ≠ y.1 ∨ ∀ a r r', x.2 a r → ¬ y.2 a r') := by
  have add : ∀ a r r', calc2 (· + ·) bs!" + " a r → ¬ sum3 a r' := by
    rintro _ _ _ ⟨a, b, i, j, rfl, _⟩ ⟨a', b', c', i', j', k', e, _⟩
    cases e
  rcases pl with _ | _ | _
  all_goals
    simp only [rows, List.pairwise_cons, List.forall_mem_cons]
    repeat' (first | exact List.Pairwise.nil | (intro y hy; cases hy) | exact .inl (by decide) | exact .inr add | refine ⟨?_, ?_⟩)

/-- The words that are not the name of a command of a menu. -/
def reserved : List Str := [bs!"help", bs!"exit", bs!"history", bs!"!", bs!"cli", bs!"arithmetic", bs!"strings", bs!".."]

theorem rows_name (b : Bool) (s : Desk) (pl : Place) : ∀ row ∈ rows b s pl, row.1 ∉ reserved := by
  have key : ∀ n ∈ (rows b s pl).map (·.1), n ∉ reserved := by
    rcases pl with _ | _ | _ <;> simp only [rows, List.map_cons, List.map_nil] <;> decide
  exact fun row h => key row.1 (List.mem_map_of_mem h)

theorem place_reserved (a : Place) : a.name ∈ reserved := by rcases a with _ | _ | _ <;> decide

theorem place_name {a c : Place} (h : a.name = c.name) : a = c := by
  rcases a with _ | _ | _ <;> rcases c with _ | _ | _ <;> first | rfl | (revert h; decide)

/-- **C135** The table is unambiguous: a line does one thing at most. -/
theorem C135_table {b : Bool} {s : Desk} : ∀ {toks : List Str} {pl : Place} {r r' : Reply}, Does b s pl toks r → Does b s pl toks r' → r = r'
  | [], _, _, _, h, _ => absurd h does_nil
  | t :: rest, pl, r, r', h1, h2 => by
    have sub : ∀ {q : Place} {x y : Reply}, ((rest = [] ∧ x = .goes q) ∨ Does b s q rest x) → ((rest = [] ∧ y = .goes q) ∨ Does b s q rest y) → x = y := by
      rintro q x y (⟨e, rfl⟩ | h) (⟨e', rfl⟩ | h')
      · rfl
      · rw [e] at h'; exact absurd h' does_nil
      · rw [e'] at h; exact absurd h does_nil
      · exact C135_table h h'
    have up : ∀ {a : Place} , (t = a.name ∨ t = bs!"..") → t ∈ reserved := by
      rintro a (rfl | rfl)
      · exact place_reserved a
      · decide
    rcases does_cons.1 h1 with ⟨x, m1, n1, d1⟩ | ⟨q, a1, n1, d1⟩ | ⟨q, a1, n1, d1⟩ <;> rcases does_cons.1 h2 with ⟨y, m2, n2, d2⟩ | ⟨c, a2, n2, d2⟩ | ⟨c, a2, n2, d2⟩
    · rcases pairwise_mem (rows_apart b s pl) m1 m2 with rfl | (h | h) | (h | h)
      · exact rows_single b s pl x m1 _ _ _ d1 d2
      · exact absurd (n1.symm.trans n2) h
      · exact absurd d2 (h _ _ _ d1)
      · exact absurd (n2.symm.trans n1) h
      · exact absurd d1 (h _ _ _ d2)
    · exact absurd (by rw [← n1, n2]; exact place_reserved c) (rows_name b s pl x m1)
    · exact absurd (by rw [← n1]; exact up n2) (rows_name b s pl x m1)
    · exact absurd (by rw [← n2, n1]; exact place_reserved q) (rows_name b s pl y m2)
    · have : q = c := place_name (n1.symm.trans n2)
      subst this; exact sub d1 d2
    · obtain ⟨rfl, _⟩ := a1
      exact absurd a2 above_root
    · exact absurd (by rw [← n2]; exact up n1) (rows_name b s pl y m2)
    · obtain ⟨rfl, _⟩ := a2
      exact absurd a1 above_root
    · have : q = c := by rw [a1.1, a2.1]
      subst this; exact sub d1 d2

theorem does_tokens {b : Bool} {s : Desk} {pl : Place} {toks : List Str} {r : Reply} (h : Does b s pl toks r) : toks ∉ [[], [bs!"help"], [bs!"history"], [bs!"exit"]] ∧ ∀ a, toks ≠ [bs!"!", a] := by
  have key : ∀ t rest, toks = t :: rest → t ∉ [bs!"help", bs!"exit", bs!"history", bs!"!"] := by
    rintro t rest rfl
    rcases does_cons.1 h with ⟨x, m, rfl, _⟩ | ⟨q, _, rfl, _⟩ | ⟨q, _, rfl | rfl, _⟩
    · have := rows_name b s pl x m
      simp only [reserved, List.mem_cons, List.not_mem_nil, or_false, not_or] at this ⊢
      exact ⟨this.1, this.2.1, this.2.2.1, this.2.2.2.1⟩
    · rcases q with _ | _ | _ <;> decide
    · rcases q with _ | _ | _ <;> decide
    · decide
  constructor
  · intro hm
    simp only [List.mem_cons, List.not_mem_nil, or_false] at hm
    rcases hm with rfl | rfl | rfl | rfl
    · exact does_nil h
    all_goals exact absurd (by decide) (key _ _ rfl)
  · rintro a rfl
    exact absurd (by decide) (key _ _ rfl)

/-- What a line does depends on the plugins loaded and on the colours. -/
theorem does_desk {b : Bool} {s s' : Desk} (h1 : s'.loaded = s.loaded) (h2 : s'.choice = s.choice) {pl : Place} {toks : List Str} {r : Reply} (h : Does b s pl toks r) : Does b s' pl toks r := by
  have ab : ∀ {a c}, Above s a c → Above s' a c := by rintro a c ⟨e, p, hp, e'⟩; exact ⟨e, p, by rw [h1]; exact hp, e'⟩
  have rw_ : ∀ pl, rows b s' pl = rows b s pl := by intro pl; rcases pl with _ | _ | _ <;> simp only [rows, h1, h2]
  induction h with
  | here m d => exact .here (by rw [rw_]; exact m) d
  | down a => exact .down (ab a)
  | inside a _ ih => exact .inside (ab a) ih
  | up a t => exact .up (ab a) t
  | outside a t _ ih => exact .outside (ab a) t ih

/-! ### The answers are unambiguous -/

theorem does_line {b : Bool} {s : Desk} {pl : Place} {toks : List Str} {r : Reply} {l : Str} (hl : Lex.Line l toks) (h : Does b s pl toks r) : ¬ Lex.Line l [] ∧ ¬ Lex.Line l [bs!"help"] ∧ ¬ Lex.Line l [bs!"history"] ∧ ¬ Lex.Line l [bs!"exit"] ∧ ¬ Bang l := by
  obtain ⟨h1, h2⟩ := does_tokens h
  refine ⟨fun x => h1 ?_, fun x => h1 ?_, fun x => h1 ?_, fun x => h1 ?_, fun ⟨n, a, x, _⟩ => h2 a (line_same hl x)⟩ <;> (rw [line_same hl x]; decide)

theorem recalls_help {l : Str} {n : Nat} (h : Recalls l n) : ¬ Lex.Line l [bs!"help"] := by
  obtain ⟨a, h1, _⟩ := h
  exact fun x => absurd (line_same h1 x) (by simp)

theorem wrong_line {toks : List Str} {l : Str} (hl : Lex.Line l toks) (h : toks ∉ [[], [bs!"help"], [bs!"history"], [bs!"exit"]]) : ¬ Lex.Line l [] ∧ ¬ Lex.Line l [bs!"help"] ∧ ¬ Lex.Line l [bs!"history"] ∧ ¬ Lex.Line l [bs!"exit"] := by
  refine ⟨fun x => h ?_, fun x => h ?_, fun x => h ?_, fun x => h ?_⟩ <;> (rw [line_same hl x]; decide)

theorem answer_unique {f : Bool} {s a b : Desk} {l t u : Str} (h1 : Answer f s l a t) (h2 : Answer f s l b u) : a = b ∧ t = u := by
  induction h1 generalizing b u with
  | blank x =>
    cases h2 with
    | blank => exact ⟨rfl, rfl⟩
    | help y => cases line_same x y
    | does y d => exact absurd x (does_line y d).1
    | wrong y n => exact absurd x (wrong_line y n).1
    | history y => cases line_same x y
    | again y => exact absurd x (recalls_kind y).1
    | unknown y => exact absurd x (recalls_kind y).1
  | help x =>
    cases h2 with
    | blank y => cases line_same x y
    | help y => exact ⟨rfl, rfl⟩
    | does y d => exact absurd x (does_line y d).2.1
    | wrong y n => exact absurd x (wrong_line y n).2.1
    | history y => exact absurd (line_same x y) (by decide)
    | again y => exact absurd x (recalls_help y)
    | unknown y => exact absurd x (recalls_help y)
  | does x d =>
    cases h2 with
    | blank y => exact absurd y (does_line x d).1
    | help y => exact absurd y (does_line x d).2.1
    | does y e => cases line_same x y; cases C135_table d e; exact ⟨rfl, rfl⟩
    | wrong y _ _ n => cases line_same x y; exact absurd d (n _)
    | history y => exact absurd y (does_line x d).2.2.1
    | again y => exact absurd ⟨_, y⟩ (does_line x d).2.2.2.2
    | unknown y => exact absurd ⟨_, y⟩ (does_line x d).2.2.2.2
  | wrong x n1 n2 n3 =>
    cases h2 with
    | blank y => exact absurd y (wrong_line x n1).1
    | help y => exact absurd y (wrong_line x n1).2.1
    | does y e => cases line_same x y; exact absurd e (n3 _)
    | wrong y => exact ⟨rfl, rfl⟩
    | history y => exact absurd y (wrong_line x n1).2.2.1
    | again y => exact absurd ⟨_, y⟩ n2
    | unknown y => exact absurd ⟨_, y⟩ n2
  | history x =>
    cases h2 with
    | blank y => cases line_same x y
    | help y => exact absurd (line_same x y) (by decide)
    | does y e => exact absurd x (does_line y e).2.2.1
    | wrong y n => exact absurd x (wrong_line y n).2.2.1
    | history => exact ⟨rfl, rfl⟩
    | again y => exact absurd x (recalls_kind y).2.1
    | unknown y => exact absurd x (recalls_kind y).2.1
  | again x m _ ih =>
    cases h2 with
    | blank y => exact absurd y (recalls_kind x).1
    | help y => exact absurd y (recalls_help x)
    | does y e => exact absurd ⟨_, x⟩ (does_line y e).2.2.2.2
    | wrong y _ n => exact absurd ⟨_, x⟩ n
    | history y => exact absurd y (recalls_kind x).2.1
    | again y m' h =>
      cases recalls_same x y
      cases listing_same m m'
      exact ih h
    | unknown y m' =>
      cases recalls_same x y
      exact absurd m (m' _)
  | unknown x m =>
    cases h2 with
    | blank y => exact absurd y (recalls_kind x).1
    | help y => exact absurd y (recalls_help x)
    | does y e => exact absurd ⟨_, x⟩ (does_line y e).2.2.2.2
    | wrong y _ n => exact absurd ⟨_, x⟩ n
    | history y => exact absurd y (recalls_kind x).2.1
    | again y m' h =>
      cases recalls_same x y
      exact absurd m' (m _)
    | unknown y => exact ⟨rfl, rfl⟩

/-- A line that is answered does not end the session. -/
theorem answer_no_quit {f : Bool} {s s' : Desk} {l t : Str} (h2 : Quits s l) (h1 : Answer f s l s' t) : False := by
  induction h2 generalizing s' t with
  | exit x =>
    cases h1 with
    | blank y => cases line_same x y
    | help y => exact absurd (line_same x y) (by decide)
    | does y d => exact (does_line y d).2.2.2.1 x
    | wrong y n => exact (wrong_line y n).2.2.2 x
    | history y => exact absurd (line_same x y) (by decide)
    | again y => exact (recalls_kind y).2.2 x
    | unknown y => exact (recalls_kind y).2.2 x
  | again x m _ ih =>
    cases h1 with
    | blank y => exact (recalls_kind x).1 y
    | help y => exact recalls_help x y
    | does y e => exact (does_line y e).2.2.2.2 ⟨_, x⟩
    | wrong y _ n => exact n ⟨_, x⟩
    | history y => exact (recalls_kind x).2.1 y
    | again y m' h =>
      cases recalls_same x y
      cases listing_same m m'
      exact ih h
    | unknown y m' =>
      cases recalls_same x y
      exact m' _ m

theorem empty_listing {b : Book} {l : Str} (e : (b.record l).entries = [] ∨ ((b.record l).forget.first = 0 ∧ (b.record l).forget.entries = [])) (n : Nat) (c : Str) : (n, c) ∉ (b.record l).forget.listing := by
  intro m
  have hm := mem_listing m
  rcases e with e | ⟨_, e⟩
  · simp [Book.forget, e] at hm
  · rw [e] at hm; cases hm

theorem fails_no_quits {f : Bool} {s : Desk} {l : Str} (h1 : Fails f s l) (h2 : Quits s l) : False := by
  induction h1 with
  | does x d =>
    cases h2 with
    | exit y => exact (does_line x d).2.2.2.1 y
    | again y => exact (does_line x d).2.2.2.2 ⟨_, y⟩
  | again x m _ ih =>
    cases h2 with
    | exit y => exact (recalls_kind x).2.2 y
    | again y m' h =>
      cases recalls_same x y
      cases listing_same m m'
      exact ih h
  | empty x e =>
    cases h2 with
    | exit y => obtain ⟨n, x⟩ := x; exact (recalls_kind x).2.2 y
    | again y m' h => exact empty_listing e _ _ m'

theorem desk_prompted (s : Desk) : s.prompted.prompted = s.prompted := by
  unfold Desk.prompted Desk.colour
  simp


theorem chat_unique {f : Bool} {s a b : Desk} {ls : List Str} {o o' : Str} (h1 : Dialogue f s ls a o) (h2 : Dialogue f s ls b o') : a = b ∧ o = o' := by
  induction h1 generalizing b o' with
  | nil => cases h2; exact ⟨rfl, rfl⟩
  | line hl _ ih =>
    cases h2 with
    | line hl' hr =>
      obtain ⟨rfl, rfl⟩ := answer_unique hl hl'
      obtain ⟨rfl, rfl⟩ := ih hr
      exact ⟨rfl, rfl⟩

theorem chat_split {f : Bool} {s s' : Desk} {a b : List Str} {o : Str} (h : Dialogue f s (a ++ b) s' o) : ∃ s1 o1 o2, Dialogue f s a s1 o1 ∧ Dialogue f s1 b s' o2 := by
  induction a generalizing s o with
  | nil => exact ⟨s, [], o, .nil, h⟩
  | cons l a ih =>
    cases h with
    | line h1 h2 =>
      obtain ⟨s1, o1, o2, g1, g2⟩ := ih h2
      exact ⟨s1, _, o2, .line h1 g1, g2⟩

theorem chat_no_quit {f : Bool} {s a b : Desk} {ls : List Str} {l o o' : Str} (h1 : Dialogue f s (ls ++ [l]) a o) (h2 : Dialogue f s ls b o') (h3 : Quits b l) : False := by
  obtain ⟨s1, o1, o2, g1, g2⟩ := chat_split h1
  obtain ⟨rfl, _⟩ := chat_unique g1 h2
  cases g2 with
  | line g _ => exact answer_no_quit h3 g

/-- **C135** What is typed determines what is written. -/
theorem C135_spec {f : Bool} {s : Desk} {b o o' : Str} (h1 : Scene f s b o) (h2 : Scene f s b o') : o = o' := by
  have end_ : ∀ (ls : List Str) (l : Str), enter ls ++ (l ++ bs!"\n") = enter (ls ++ [l]) ++ [] := by intro ls l; simp [enter]
  have both : ∀ {ls : List Str} {l : Str}, (∀ x ∈ ls, Printable x) → Printable l → ∀ x ∈ ls ++ [l], Printable x := by
    intro ls l h1 h2 x hx
    rcases List.mem_append.1 hx with h | h
    · exact h1 x h
    · rw [List.mem_singleton] at h; subst h; exact h2
  have nil : Printable [] := by intro c h; cases h
  generalize hb : b = b' at h2
  cases h1 with
  | typing d1 p1 p2 =>
    cases h2 with
    | typing d3 p3 p4 =>
      obtain ⟨rfl, rfl⟩ := enter_inj p1 p3 p2 p4 hb
      obtain ⟨rfl, rfl⟩ := chat_unique d1 d3
      rfl
    | over d3 p3 p4 x =>
      rw [end_] at hb
      obtain ⟨rfl, rfl⟩ := enter_inj p1 (both p3 p4) p2 nil hb
      exact (chat_no_quit d1 d3 x).elim
  | over d1 p1 p2 x =>
    cases h2 with
    | typing d3 p3 p4 =>
      rw [end_] at hb
      obtain ⟨rfl, rfl⟩ := enter_inj (both p1 p2) p3 nil p4 hb
      exact (chat_no_quit d3 d1 x).elim
    | over d3 p3 p4 _ =>
      rw [end_, end_] at hb
      have := (enter_inj (both p1 p2) (both p3 p4) nil nil hb).1
      obtain ⟨rfl, e⟩ := List.append_inj' this rfl
      cases e
      obtain ⟨rfl, rfl⟩ := chat_unique d1 d3
      rfl

/-! ### One line -/

theorem at_note {s : Desk} {w : PWorld} (h : At s w) (io : Io) (log : List Event) (h1 : io.style.color = w.io.style.color) (h2 : (io.style.forced || io.style.tty) = (w.io.style.forced || w.io.style.tty)) : At s { w with io := io, log := log } :=
  ⟨Plugged.good_same h.good rfl rfl rfl rfl rfl, h.loaded, by have := h.place; revert this; cases s.place <;> exact id, h.offers, h.exit, h.ub, h.stopped, h1.trans h.color, h2.trans h.escapes, h.hist, h.kept⟩

theorem at_book {s : Desk} {w : PWorld} (h : At s w) {x : History.History} {bk : Book} (h1 : History.WF x) (h2 : Showcase.Kept bk x) (log : List Event) : At { s with book := bk } { w with hist := x, log := log } :=
  ⟨Plugged.good_same h.good rfl rfl rfl rfl rfl, h.loaded, by have := h.place; revert this; show Located s.place _ → Located s.place _; cases s.place <;> exact id, h.offers, h.exit, h.ub, h.stopped, h.color, h.escapes, h1, h2⟩

theorem at_record {s : Desk} {w : PWorld} (h : At s w) (line : Str) : ∃ x, History.newCommand w.hist line = .ok x ∧ At (s.recorded line) (w.entered x) ∧ x.mode = .inserting := by
  obtain ⟨x, a, b, _, c, _⟩ := History.newCommand_ok h.hist line
  obtain ⟨y, d, e⟩ := kept_record h.kept h.hist line
  cases a.symm.trans d
  exact ⟨x, a, at_book h b e _, c⟩

theorem help_text {s : Desk} {w : PWorld} (h : At s w) : helpCmd (w.note (.builtin .help)) = .ok ({ w.note (.builtin .help) with io := w.io.put (bs!"Commands available:\n" ++ (globalItems ++ s.offers).flatMap HelpItem.text) }) := by
  unfold helpCmd
  obtain ⟨i, P, h1, h2⟩ := locate_place h
  rw [show (w.note (.builtin .help)).tree.locate (w.note (.builtin .help)).current = some P from h1]
  have hg : globalCmds.flatMap Cmd.helpText = globalItems.flatMap HelpItem.text := by decide +kernel
  have hgood := h.good
  have key : mainHelp w.dis P = s.offers.flatMap HelpItem.text := by
    have hl := h.loaded
    obtain ⟨d5, d6⟩ := h.offers
    have d0 : w.dis rootInfo.id = false := hgood.others 0 (by decide) (by decide)
    generalize hp : s.place = pl at h2
    cases h2 with
    | root =>
      simp only [rootPath, mainHelp, d0, Bool.false_eq_true, if_false, List.append_nil, Desk.offers, hp]
      rw [rootKids_text w.dis _ (hgood.others 1 (by decide) (by decide)) (hgood.others 2 (by decide) (by decide)) (hgood.others 3 (by decide) (by decide)) (hgood.others 4 (by decide) (by decide)),
        kidsOf_text w.dis _ (fun e he => hgood.on he), d5, d6, hl]
      have hk : s.loaded.flatMap Plugged.plugText = (s.loaded.map fun p => (⟨called p, [], bs!"Enter the " ++ called p ++ bs!" plugin menu"⟩ : HelpItem)).flatMap HelpItem.text := by
        rw [List.flatMap_map]; congr 1; funext p; cases p <;> decide +kernel
      rw [hk]
      generalize s.choice = ch
      rcases ch with _ | _ | _ <;> simp only [List.flatMap_append, ← List.append_assoc] <;> rfl
    | @plug e he =>
      have h7 := (hgood.above e he).1
      have on : ∀ k : Nat, 7 ≤ k → w.dis k = false := fun k hk => hgood.others k (fun hh => by have : k = 5 := hh; omega) (fun hh => by have : k = 6 := hh; omega)
      have d1 := on (e.menu + 1) (by omega)
      have d2 := on (e.menu + 2) (by omega)
      have d3 := on (e.menu + 3) (by omega)
      have hn : (e.plug.kids e.menu).helpText w.dis = (e.plug.kids e.menu).helpText (fun _ => false) := by
        cases e with
        | mk p m => cases p <;> (simp only at d1 d2 d3; simp only [Plug.kids, Forest.helpText, Plugins.cmd, d1, d2, d3])
      simp only [itemPath, rootPath, mainHelp, hgood.on he, show w.dis (e.plug.info e.menu).id = false from hgood.on he, d0, Bool.false_eq_true, if_false, hn, Desk.offers, hp]
      cases e with
      | mk p m => cases p <;> rfl
  show Except.ok ((w.note (.builtin .help)).put (_ ++ _ ++ mainHelp w.dis P)) = _
  rw [hg, key, List.flatMap_append, ← List.append_assoc]
  rfl

theorem exit_says {s : Desk} {w : PWorld} {l : Str} (hl : Lex.Line l [bs!"exit"]) (p : Platform) (b : Bool) (fuel : Nat) (h : At s w) :
    ∃ w', feed (Plugins.app p b) (fuel + 1) l w = .ok (w', none) ∧ w'.io.out = w.io.out ++ farewell ∧ w'.exit = true ∧ w'.app = { w.app with stopped := true } := by
  obtain ⟨x, hx, hr, _⟩ := at_record h l
  obtain ⟨w', cmds, e1, _, e3, e4, _, _, e7⟩ := Props.C57_exit (Plugins.app p b) _ rfl ((w.entered x).note (.builtin .exit)) hr.hist rfl rfl (fun _ => rfl)
  refine ⟨w', ?_, ?_, e7, e3⟩
  · rw [feed_eq _ hl (by simp), hx]
    simp only
    have hs : scanGlobal (Plugins.app p b) (feed (Plugins.app p b) fuel) [bs!"exit"] (w.entered x) = .ok (w', .found) := by
      have h1 : ¬ bs!"exit" = bs!"help" := by decide
      simp only [scanGlobal, h1, if_false, if_true, bind, Except.bind, e1, builtinOutcome]
    unfold body
    rw [hs]
    rfl
  · rw [e4, List.append_assoc]; rfl

/-- What the line leads to is undefined: the session has no current menu any more, so that the prompt has no name to show, or a sum has been too large, or the history is empty. -/
def Lost (x : Except Fault (PWorld × Option Exn)) : Prop := (∃ w', x = .ok (w', none) ∧ (w'.app.ub = true ∨ (w'.exit = false ∧ w'.tree.locate w'.current = none))) ∨ ∃ u, x = .error (.ub u)

/-- The line ends the session. -/
def Ended (s : Desk) (l : Str) (w : PWorld) (x : Except Fault (PWorld × Option Exn)) : Prop :=
  ∃ w', Quits s l ∧ x = .ok (w', none) ∧ w'.io.out = w.io.out ++ farewell ∧ w'.exit = true ∧ w'.app.stopped = true ∧ w'.app.ub = false ∧ w'.app.loaded.map (·.plug) = s.loaded

/-- It is answered. -/
def Answered (f : Bool) (s : Desk) (l : Str) (w : PWorld) (x : Except Fault (PWorld × Option Exn)) : Prop :=
  ∃ w' s' t, ¬ Fails f s l ∧ x = .ok (w', none) ∧ Answer f s l s' t ∧ At s' w' ∧ w'.io.out = w.io.out ++ t

/-- What one line does that is not `!` and a number. -/
theorem plain_line (p : Platform) (b : Bool) (fuel : Nat) {s : Desk} {w : PWorld} {l : Str} (h : At s w) (hh : Readable p l) (hn : ¬ Bang l) :
    Ended s l w (feed (Plugins.app p b) (fuel + 1) l w) ∨ (Fails b s l ∧ Lost (feed (Plugins.app p b) (fuel + 1) l w)) ∨ Answered b s l w (feed (Plugins.app p b) (fuel + 1) l w) := by
  obtain ⟨toks, hl⟩ := Split.line_total l
  have nf : (∀ r, Does b s s.place toks r → ¬ (r = .undefined ∨ Pulls s r)) → ¬ Fails b s l := by
    intro g hf
    cases hf with
    | does x d e => cases line_same x hl; exact g _ d e
    | again x => exact hn ⟨_, x⟩
    | empty x => exact hn x
  have nd : toks ∈ [[], [bs!"help"], [bs!"history"], [bs!"exit"]] → ¬ Fails b s l := fun g => nf (fun r d => absurd g (does_tokens d).1)
  by_cases hb : toks = []
  · subst hb
    exact .inr (.inr ⟨w, s, [], nd (by decide), by simp only [feed, (split_iff _ _).2 hl, bind, Except.bind, if_true], .blank hl, h, by simp⟩)
  obtain ⟨x, hx, hr, hmode⟩ := at_record h l
  have hf : feed (Plugins.app p b) (fuel + 1) l w = catchAll (Plugins.app p b) l (body (Plugins.app p b) (feed (Plugins.app p b) fuel) l toks (w.entered x)) := by
    rw [feed_eq (Plugins.app p b) hl hb, hx]
  rcases scanGlobal_cases (Plugins.app p b) (feed (Plugins.app p b) fuel) toks hb (w.entered x) with ⟨g1, g2⟩ | ⟨_, _, a, ha, hc⟩ | ⟨g1, g2⟩ | ⟨g1, g2⟩ | ⟨g1, g2⟩ | ⟨a, n, g1, g2, g3⟩
  · rw [hf]
    simp only [body, g2, userPart]
    rcases scan_agrees (b := b) (pf := p) hb (harmless_fine hh hl) hr with ⟨r, w', k1, k2, k3⟩ | ⟨k1, k2⟩
    · rw [k2]
      have k1 : Does b s s.place toks r := does_desk (s := s.recorded l) (s' := s) rfl rfl k1
      by_cases hu : r = .undefined
      · exact .inr (.inl ⟨.does hl k1 (.inl hu), .inl ⟨w', rfl, .inl (k3.ub hu)⟩⟩)
      by_cases hp : Pulls s r
      · exact .inr (.inl ⟨.does hl k1 (.inr hp), .inl ⟨w', rfl, .inr (k3.pulled hp)⟩⟩)
      refine .inr (.inr ⟨w', _, _, nf (fun r' d => ?_), rfl, .does hl k1 hu hp, k3.next hu hp, ?_⟩)
      · cases C135_table k1 d; exact fun e => e.elim hu hp
      · rw [k3.out]; cases r <;> rfl
    · rw [k2]
      have k1 : ∀ r, ¬ Does b s s.place toks r := fun r d => k1 r (does_desk (s := s) (s' := s.recorded l) rfl rfl d)
      have hr4 : toks ∉ [[], [bs!"help"], [bs!"history"], [bs!"exit"]] := by
        intro hm
        simp only [List.mem_cons, List.not_mem_nil, or_false] at hm
        rcases hm with rfl | rfl | rfl | rfl
        · exact hb rfl
        · exact g1 _ .help
        · exact g1 _ .history
        · exact g1 _ .exit
      refine .inr (.inr ⟨_, _, _, nf (fun r d => absurd d (k1 r)), rfl, .wrong hl hr4 hn k1, at_note hr (w.io.put _) _ rfl rfl, ?_⟩)
      rfl
  · subst ha
    obtain ⟨c, hc1, hc2⟩ := hc
    have := ((harmless_fine (p := p) hh hl) a (by simp)).1 c hc1
    rw [show (Plugins.app p b).plat = p from rfl] at hc2
    rw [hc2] at this; cases this
  · subst g1
    rw [hf]
    simp only [body, g2, helpPart, help_text hr]
    exact .inr (.inr ⟨_, s.recorded l, _, nd (by decide), rfl, .help hl, at_note hr (w.io.put _) _ rfl rfl, rfl⟩)
  · subst g1
    obtain ⟨w', e1, e2, e3, e4⟩ := exit_says hl p b fuel h
    exact .inl ⟨w', .exit hl, e1, e2, e3, by rw [e4], by rw [e4]; exact h.ub, by rw [e4]; exact h.loaded⟩
  · subst g1
    rw [hf]
    simp only [body, g2, historyPart, catchAll, kept_listing hr.kept]
    exact .inr (.inr ⟨_, _, _, nd (by decide), rfl, .history hl, at_note hr (w.io.put _) _ rfl rfl, rfl⟩)
  · subst g1
    exact absurd ⟨n, a, hl, g2, g3.1⟩ hn

/-- **What one line does**, if it does not refer to the history through too many lines. -/
theorem line_deep (p : Platform) (b : Bool) : ∀ (k fuel : Nat) {s : Desk} {w : PWorld} {l : Str}, At s w → Within p k s l →
    Ended s l w (feed (Plugins.app p b) (fuel + k + 1) l w) ∨ (Fails b s l ∧ Lost (feed (Plugins.app p b) (fuel + k + 1) l w)) ∨ Answered b s l w (feed (Plugins.app p b) (fuel + k + 1) l w) := by
  intro k
  induction k with
  | zero =>
    intro fuel s w l h hw
    cases hw with
    | plain hh hb => exact plain_line p b fuel h hh hb
  | succ k ih =>
    intro fuel s w l h hw
    cases hw with
    | plain hh hb => exact plain_line p b (fuel + (k + 1)) h hh hb
    | @again _ _ _ n hh hn hdeep =>
      have hb : Bang l := ⟨n, hn⟩
      obtain ⟨a, b1, b2, b3⟩ := id hn
      have nd : ∀ {toks r}, Lex.Line l toks → ¬ Does b s s.place toks r := fun x d => (does_line x d).2.2.2.2 hb
      obtain ⟨x, hx, hr, hmode⟩ := at_record h l
      have hf : feed (Plugins.app p b) (fuel + (k + 1) + 1) l w = catchAll (Plugins.app p b) l (body (Plugins.app p b) (feed (Plugins.app p b) (fuel + (k + 1))) l [bs!"!", a] (w.entered x)) := by
        rw [feed_eq (Plugins.app p b) b1 (by simp), hx]
      rw [hf]
      simp only [body, scanGlobal_bang (Plugins.app p b) (feed (Plugins.app p b) (fuel + (k + 1))) (w.entered x) b2 b3]
      by_cases hroom : (s.recorded l).book.entries = []
      · refine .inr (.inl ⟨.empty hb (.inl hroom), .inr ⟨.emptyContainer, ?_⟩⟩)
        have : (w.entered x).hist.buffer = [] := by rw [hr.kept.entries]; simp [hroom]
        simp only [bangPart, History.forgetLatest, this, catchAll]
      · obtain ⟨y, f1, f2⟩ := kept_forget hr.kept hroom
        have f2 : Showcase.Kept (s.skipped l).book y := f2
        have hyw := (History.forget_wf hr.hist hmode f1).1
        have hat : At (s.skipped l) { (w.entered x).note (.builtin (.bang n)) with hist := y } := at_book h hyw f2 _
        simp only [bangPart, f1]
        by_cases he : (s.skipped l).book.first = 0 ∧ (s.skipped l).book.entries = []
        · refine .inr (.inl ⟨.empty hb (.inr he), .inr ⟨.outOfRange, ?_⟩⟩)
          have i1 : y.idOfOldest = 0 := f2.first.trans he.1
          have i2 : y.buffer = [] := by rw [f2.entries, he.2]; rfl
          have e : History.idToIndex y n = some (History.wsub (2 ^ 64 - 1) n) := by
            simp only [History.idToIndex, i1, i2, List.length_nil]
            rw [if_neg (by simp [History.wsub]; omega)]
            rfl
          simp only [History.at, e, i2, List.getElem?_nil, catchAll]
        · have hne : y.idOfOldest + y.buffer.length ≠ 0 := by
            rw [f2.first, f2.entries, List.length_reverse]
            intro hz
            exact he ⟨by omega, List.length_eq_zero_iff.1 (by omega)⟩
          by_cases hc : ∃ c, (n, c) ∈ (s.skipped l).book.listing
          · obtain ⟨c, hc⟩ := hc
            rw [(History.at_listing y hne n c).2 (by rw [kept_listing f2]; exact hc)]
            have ih' := ih fuel hat (hdeep c hc)
            rw [show fuel + k + 1 = fuel + (k + 1) from rfl] at ih'
            simp only
            rcases ih' with ⟨w', e1, e2, e3⟩ | ⟨e1, ⟨w', e2, e3⟩ | ⟨u, e2⟩⟩ | ⟨w', s', t, e1, e2, e3, e4, e5⟩
            · rw [e2]
              exact .inl ⟨w', .again hn hc e1, rfl, e3⟩
            · rw [e2]
              exact .inr (.inl ⟨.again hn hc e1, .inl ⟨w', rfl, e3⟩⟩)
            · exact .inr (.inl ⟨.again hn hc e1, .inr ⟨u, by simp only [e2, catchAll]⟩⟩)
            · rw [e2]
              refine .inr (.inr ⟨w', s', t, fun hf => ?_, rfl, .again hn hc e3, e4, e5⟩)
              cases hf with
              | does x d => exact nd x d
              | again h1 h2 h3 =>
                cases recalls_same hn h1
                cases listing_same hc h2
                exact e1 h3
              | empty _ h => exact h.elim hroom he
          · have hc : ∀ c, (n, c) ∉ (s.skipped l).book.listing := fun c h => hc ⟨c, h⟩
            rw [(History.at_none y hne n).2 (by rw [kept_listing f2]; exact hc)]
            refine .inr (.inr ⟨_, _, _, fun hf => ?_, rfl, .unknown hn hc, ?_, ?_⟩)
            · cases hf with
              | does x d => exact nd x d
              | again h1 h2 h3 =>
                cases recalls_same hn h1
                exact hc _ h2
              | empty _ h => exact h.elim hroom he
            · exact at_note hat (w.io.put _) _ rfl rfl
            · simp only [reportException, Plugins.app, World.effect, World.note, List.foldl_cons, List.foldl_nil, World.act, World.put, Io.put, Exn.what]
              rfl

theorem line_step (p : Platform) (b : Bool) (fuel : Nat) {s : Desk} {w : PWorld} {l : Str} (h : At s w) (hw : Within p fuel s l) :
    Ended s l w (feed (Plugins.app p b) (fuel + 1) l w) ∨ (Fails b s l ∧ Lost (feed (Plugins.app p b) (fuel + 1) l w)) ∨ Answered b s l w (feed (Plugins.app p b) (fuel + 1) l w) := by
  have deep := line_deep p b fuel 0 h hw
  rwa [Nat.zero_add] at deep

theorem prompt_here {s : Desk} {w : PWorld} (h : At s w) : ∃ w', prompt w = .ok w' ∧ At s.prompted w' ∧ w'.io.out = w.io.out ++ s.prompt := by
  obtain ⟨i, P, h1, h2⟩ := locate_place h
  have hP : ∃ m ks rest, P = (m, ks) :: rest ∧ m.prompt = s.place.name := by
    generalize s.place = pl at h2
    cases h2 with
    | root => exact ⟨_, _, _, rfl, rfl⟩
    | @plug e he => exact ⟨_, _, _, rfl, by cases e with | mk p m => cases p <;> rfl⟩
  obtain ⟨m, ks, rest, rfl, e2⟩ := hP
  have e3 : decimal 32 = bs!"32" := by decide +kernel
  have e4 : decimal 1 = bs!"1" := by decide +kernel
  have e5 : decimal 0 = bs!"0" := by decide +kernel
  have hpl := h.place
  refine ⟨{ w with io := (((w.io.beforePrompt).put m.prompt).afterPrompt).put bs!"> " }, by simp only [prompt, h.exit, Bool.false_eq_true, if_false, h1],
    ⟨Plugged.good_same h.good rfl rfl rfl rfl rfl, h.loaded, by revert hpl; show Located s.place _ → Located s.place _; cases s.place <;> exact id, h.offers, h.exit, h.ub, h.stopped, ?_, ?_, h.hist, h.kept⟩, ?_⟩
  all_goals
    have hc := h.color
    have hx := h.escapes
    clear h1 h2 hpl h
    try simp only [show s.prompted.colour = s.colour from rfl]
    try simp only [show s.prompted.escapes = (s.colour || s.escapes) from rfl]
    simp only [Desk.prompt, ← hc, ← hx, e2]
    clear hc hx
    obtain ⟨⟨c, t, f⟩, out⟩ := w.io
    cases c <;> cases t <;> cases f <;> simp [Io.beforePrompt, Io.afterPrompt, Io.put, Io.force, Io.sgr, e3, e4, e5]

/-! ### Typing -/

theorem key_here (p : Platform) (b : Bool) {s : Desk} {w : PWorld} {l : Str} {c : Byte} (fuel : Nat) (h : At s w) (hp : s.prompted = s) (hc : printable c = true) :
    ∃ w', Processor.keypressed (Plugins.app p b) fuel ⟨w, ⟨l, l.length⟩, true⟩ (.ascii c) = .ok (⟨w', ⟨l ++ [c], (l ++ [c]).length⟩, true⟩, none) ∧ At s w' ∧ w'.io.out = w.io.out ++ s.echo c := by
  have hn : c ≠ b%'\t' := by rintro rfl; simp [printable] at hc
  have e97 : decimal 97 = bs!"97" := by decide +kernel
  have e0 : decimal 0 = bs!"0" := by decide +kernel
  have hio : ∃ io, Terminal.keypressed ⟨l, l.length⟩ w.io (.ascii c) = .ok (⟨l ++ [c], (l ++ [c]).length⟩, io, .nothing) ∧ io.style.color = w.io.style.color ∧ (io.style.forced || io.style.tty) = (w.io.style.forced || w.io.style.tty) ∧
      io.out = w.io.out ++ s.echo c := by
    have hcol := h.color
    have hesc := h.escapes
    have hpe : (s.colour || s.escapes) = s.escapes := congrArg Desk.escapes hp
    simp only [Terminal.keypressed, hn, if_false]
    simp only [Terminal.suffix, Terminal.repSub, Terminal.insertAt, bind, Except.bind]
    revert hcol hesc
    obtain ⟨⟨col, tty, f⟩, out⟩ := w.io
    intro hcol hesc
    simp only at hcol hesc
    rw [← hcol, ← hesc] at hpe
    simp [Desk.echo, ← hcol, ← hesc]
    cases col <;> cases tty <;> cases f <;> simp_all [Io.beforeInput, Io.afterInput, Io.put, Io.force, Io.sgr, Terminal.rep]
  obtain ⟨io, h1, h2, h3, h4⟩ := hio
  refine ⟨{ w with io := io }, ?_, at_note h io w.log h2 h3, h4⟩
  simp only [Processor.keypressed, h1, bind, Except.bind, Processor.newCommand]

theorem typing_here (p : Platform) (b : Bool) (fuel : Nat) : ∀ (cs : Str) (l : Str) {s : Desk} {w : PWorld}, At s w → s.prompted = s → Printable cs →
    ∃ w', Processor.run (Plugins.app p b) fuel (cs.map Key.ascii) ⟨w, ⟨l, l.length⟩, true⟩ = .ok (⟨w', ⟨l ++ cs, (l ++ cs).length⟩, true⟩, none) ∧ At s w' ∧ w'.io.out = w.io.out ++ s.echoes cs
  | [], l, s, w, h, _, _ => ⟨w, by simp [Processor.run], h, by simp [Desk.echoes]⟩
  | c :: cs, l, s, w, h, hp, hc => by
    obtain ⟨w1, h1, h2, h3⟩ := key_here p b (l := l) fuel h hp (hc c (by simp))
    obtain ⟨w2, g1, g2, g3⟩ := typing_here p b fuel cs (l ++ [c]) h2 hp (fun d hd => hc d (by simp [hd]))
    refine ⟨w2, ?_, g2, ?_⟩
    · simp only [List.map_cons, Processor.run, h1, bind, Except.bind]
      rw [g1]
      simp
    · rw [g3, h3]; simp [Desk.echoes]

/-- A line, with Enter. -/
theorem line_here (p : Platform) (b : Bool) (fuel : Nat) {s : Desk} {w : PWorld} {l : Str} (h : At s w) (hp : s.prompted = s) (hl : Printable l) :
    ∃ w1, At s w1 ∧ w1.io.out = w.io.out ++ s.echoes l ++ bs!"\r\n" ∧
      Processor.run (Plugins.app p b) fuel ((l ++ bs!"\n").map keyOf) ⟨w, ⟨[], 0⟩, true⟩ = enterLine (Plugins.app p b) fuel l w1 := by
  obtain ⟨w1, h1, h2, h3⟩ := typing_here p b fuel l [] h hp hl
  refine ⟨{ w1 with io := w1.io.put bs!"\r\n" }, at_note h2 _ w1.log rfl rfl, by simp [Io.put, h3], ?_⟩
  rw [List.map_append, keys_printable hl, Props.proc_run_append]
  simp only [List.length_nil] at h1
  rw [h1]
  simp only [List.nil_append, enterLine, List.map_cons, List.map_nil, keyOf, if_true, Processor.run, Processor.keypressed, Terminal.keypressed, Processor.newCommand, bind, Except.bind]
  rcases feed (Plugins.app p b) fuel l { w1 with io := w1.io.put bs!"\r\n" } with f | ⟨w2, _ | e⟩
  · rfl
  · simp only
    cases prompt w2 <;> rfl
  · rfl

theorem scene_line {b : Bool} {s s' : Desk} {l t k o : Str} (hp : Printable l) (hl : Answer b s l s' t) (h : Scene b s'.prompted k o) :
    Scene b s (l ++ bs!"\n" ++ k) (s.echoes l ++ bs!"\r\n" ++ t ++ s'.prompt ++ o) := by
  have hall : ∀ {ls : List Str}, (∀ x ∈ ls, Printable x) → ∀ x ∈ l :: ls, Printable x := by
    intro ls h x hx
    rcases List.mem_cons.1 hx with rfl | hx
    · exact hp
    · exact h x hx
  cases h with
  | @typing ls s2 o2 k d p1 p2 =>
    have := Scene.typing (.line hl d) (hall p1) p2
    simpa [enter] using this
  | @over ls s2 o2 k d p1 p2 x =>
    have := Scene.over (.line hl d) (hall p1) p2 x
    simpa [enter] using this

theorem play_tail {p : Platform} {b : Bool} {fuel : Nat} {s s' : Desk} {l x t : Str} {ls : List Str} (h : Play p b fuel s (l :: ls) x) (ha : Answer b s l s' t) : Play p b fuel s'.prompted ls x :=
  ⟨fun k hk => h.lines k (by simp only [List.cons_append, List.mem_cons]; exact .inr hk), fun a k c s2 o e d => h.fine (l :: a) k c s2 _ (by rw [e]; rfl) (.line ha d), fun s2 o d => h.last s2 _ (.line ha d)⟩

theorem play_here (p : Platform) (b : Bool) (fuel : Nat) {x : Str} : ∀ (ls : List Str) {s : Desk} {w : PWorld}, At s w → s.prompted = s → Play p b fuel s ls x → ∀ k, k <+: enter (ls ++ [x]) →
    ∃ q o, Processor.run (Plugins.app p b) (fuel + 1) (k.map keyOf) ⟨w, ⟨[], 0⟩, true⟩ = .ok (q, none) ∧ Scene b s k o ∧ q.w.io.out = w.io.out ++ o ∧ (q.w.app.stopped = true ↔ k = enter (ls ++ [x])) ∧ q.w.app.ub = false ∧ (k = enter (ls ++ [x]) → ∀ s' o, Dialogue b s ls s' o → q.w.app.loaded.map (·.plug) = s'.loaded)
  | [], s, w, h, hp, hpl, k, hb => by
    have px := hpl.lines x (by simp)
    obtain ⟨hx, hwx⟩ := hpl.last s [] .nil
    rcases prefix_line (x := []) (by simpa [enter] using hb) with hb | ⟨m, rfl, hm⟩
    · have pb : Printable k := fun c hc => px c (hb.subset hc)
      obtain ⟨w1, h1, h2, h3⟩ := typing_here p b (fuel + 1) k [] h hp pb
      have ne : k ≠ enter ([] ++ [x]) := by
        rintro rfl
        have := hb.length_le
        simp [enter] at this
        omega
      refine ⟨_, s.echoes k, by rw [keys_printable pb]; exact h1, by simpa [enter] using Scene.typing (s := s) .nil (by simp) pb, h3, ?_, h2.ub, fun e => absurd e ne⟩
      simp only [h2.stopped, ne]; simp
    · rw [List.prefix_nil] at hm
      subst hm
      obtain ⟨w1, h1, h2, h3⟩ := line_here p b (fuel + 1) h hp px
      rcases line_step p b fuel h1 hwx with ⟨w2, e1, e2, e3, e4, e5, e6, e7⟩ | ⟨e1, _⟩ | ⟨_, _, _, _, _, e1, _⟩
      · have hr : enterLine (Plugins.app p b) (fuel + 1) x w1 = .ok (⟨w2, ⟨[], 0⟩, true⟩, none) := by simp only [enterLine, e2, prompt, e4, if_true]
        refine ⟨_, s.echoes x ++ bs!"\r\n" ++ farewell, by rw [List.append_nil, h3]; exact hr, ?_, ?_, ?_, e6, ?_⟩
        · simpa [enter] using Scene.over (s := s) .nil (by simp) px hx
        · rw [e3, h2]; simp
        · simp [e5, enter]
        · intro _ s2 o2 d; cases d; exact e7
      · exact (fails_no_quits e1 hx).elim
      · exact (answer_no_quit hx e1).elim
  | l :: ls, s, w, h, hp, hpl, k, hb => by
    have pl := hpl.lines l (by simp)
    obtain ⟨nf, nq, hw⟩ := hpl.fine [] l ls s [] rfl .nil
    have hb' : k <+: l ++ bs!"\n" ++ enter (ls ++ [x]) := by simpa [enter] using hb
    rcases prefix_line hb' with hb | ⟨m, rfl, hm⟩
    · have pb : Printable k := fun c hc => pl c (hb.subset hc)
      obtain ⟨w1, h1, h2, h3⟩ := typing_here p b (fuel + 1) k [] h hp pb
      have ne : k ≠ enter (l :: ls ++ [x]) := by
        rintro rfl
        have := hb.length_le
        simp [enter] at this
        omega
      refine ⟨_, s.echoes k, by rw [keys_printable pb]; exact h1, by simpa [enter] using Scene.typing (s := s) .nil (by simp) pb, h3, ?_, h2.ub, fun e => absurd e ne⟩
      simp only [h2.stopped, ne]; simp
    · obtain ⟨w1, h1, h2, h3⟩ := line_here p b (fuel + 1) h hp pl
      rcases line_step p b fuel h1 hw with ⟨w2, e1, _⟩ | ⟨e1, _⟩ | ⟨w2, s2, t, _, e3, e4, e5, e6⟩
      · exact absurd e1 nq
      · exact absurd e1 nf
      · obtain ⟨w3, p1, p2, p3⟩ := prompt_here e5
        have hr : enterLine (Plugins.app p b) (fuel + 1) l w1 = .ok (⟨w3, ⟨[], 0⟩, true⟩, none) := by simp only [enterLine, e3, p1]
        obtain ⟨q, o, g1, g2, g3, g4, g5, g6⟩ := play_here p b fuel ls p2 (desk_prompted _) (play_tail hpl e4) m hm
        have hiff : (l ++ bs!"\n" ++ m = enter (l :: ls ++ [x])) ↔ m = enter (ls ++ [x]) := by
          rw [show enter (l :: ls ++ [x]) = l ++ bs!"\n" ++ enter (ls ++ [x]) by simp [enter]]
          exact List.append_right_inj _
        refine ⟨q, _, ?_, scene_line pl e4 g2, ?_, by rw [hiff]; exact g4, g5, ?_⟩
        · rw [List.map_append, Props.proc_run_append, h3, hr]
          exact g1
        · rw [g3, p3, e6, h2]; simp
        · intro e s3 o3 d
          cases d with
          | line a d =>
            obtain ⟨rfl, rfl⟩ := answer_unique e4 a
            exact g6 (hiff.1 e) _ _ d
/-! ### The program -/

theorem at_start (p : Platform) (b tty : Bool) : At (Desk.start tty) (newSession (Plugins.app p b) 200 (Plugins.boot ⟨false, false, false⟩) ⟨⟨false, tty, false⟩, []⟩) :=
  ⟨Plugged.good_same (Plugged.good_boot ⟨false, false, false⟩) rfl rfl rfl rfl rfl, rfl, rfl, ⟨rfl, rfl⟩, rfl, rfl, rfl, rfl, by cases tty <;> rfl, (Props.C33_new_session_ready 200 []).1, kept_start 200 []⟩

theorem created {p : Platform} {b : Bool} {manual : α → α} {tt : α} {tty : Bool} {l : Local.St Plugins.St Storage.Volatile α}
    (h0 : Local.create (Plugins.app p b) manual tt 200 (Plugins.boot ⟨false, false, false⟩) ⟨⟨false, tty, false⟩, []⟩ = .ok (l, none)) :
    ∃ w, l.proc = ⟨w, ⟨[], 0⟩, true⟩ ∧ At (Desk.start tty) w ∧ w.io.out = (Desk.start tty).prompt := by
  obtain ⟨w, p1, p2, p3⟩ := prompt_here (at_start p b tty)
  have hp : (Desk.start tty).prompted = Desk.start tty := by cases tty <;> rfl
  rw [hp] at p2
  unfold Local.create at h0
  split at h0
  · rename_i e; cases e
  · rename_i w' e
    split at h0
    · cases h0
    · rename_i w'' hw
      cases h0
      have e' : w' = newSession (Plugins.app p b) 200 (Plugins.boot ⟨false, false, false⟩) ⟨⟨false, tty, false⟩, []⟩ := by
        simp only [enterSession, Plugins.app, optAction] at e
        injection e with e
        exact e.symm
      rw [e'] at hw
      cases hw.symm.trans p1
      exact ⟨_, rfl, p2, p3⟩


theorem play_plainly {pf : Platform} {b : Bool} {depth : Nat} {s : Desk} {ls : List Str} {x : Str} (h : Play pf b depth s ls x) : Plainly (enter (ls ++ [x])) := plainly_enter h.lines

theorem play_at {pf : Platform} {b tty : Bool} {ls : List Str} {x : Str} {fuel : Nat} (h : Play pf b fuel (Desk.start tty) ls x) {manual : α → α} {tt : α} {l : Local.St Plugins.St Storage.Volatile α}
    (h0 : Local.create (Plugins.app pf b) manual tt 200 (Plugins.boot ⟨false, false, false⟩) ⟨⟨false, tty, false⟩, []⟩ = .ok (l, none)) (k : Str) (hk : k <+: enter (ls ++ [x])) :
    ∃ q o, Processor.run (Plugins.app pf b) (fuel + 1) (k.map keyOf) l.proc = .ok (q, none) ∧ Scene b (Desk.start tty) k o ∧ q.w.io.out = (Desk.start tty).prompt ++ o ∧
      (q.w.app.stopped = true ↔ k = enter (ls ++ [x])) ∧ q.w.app.ub = false ∧ (k = enter (ls ++ [x]) → ∀ s' o, Dialogue b (Desk.start tty) ls s' o → q.w.app.loaded.map (·.plug) = s'.loaded) := by
  obtain ⟨w, h1, h2, h3⟩ := created h0
  obtain ⟨q, o, g1, g2, g3, g4⟩ := play_here pf b fuel ls h2 (by cases tty <;> rfl) h k hk
  exact ⟨q, o, by rw [h1]; exact g1, g2, by rw [g3, h3], g4⟩

theorem play_goes {pf : Platform} {b tty : Bool} {ls : List Str} {x : Str} {fuel : Nat} (h : Play pf b fuel (Desk.start tty) ls x) {manual : α → α} {tt : α} {l : Local.St Plugins.St Storage.Volatile α}
    (h0 : Local.create (Plugins.app pf b) manual tt 200 (Plugins.boot ⟨false, false, false⟩) ⟨⟨false, tty, false⟩, []⟩ = .ok (l, none)) : Goes (Plugins.app pf b) (·.stopped) (fuel + 1) l.proc (enter (ls ++ [x])) := by
  intro k hk
  obtain ⟨q, o, g1, _, _, g4, _⟩ := play_at h h0 k hk
  exact ⟨q, g1, g4⟩

/-- **C135** (partial) At any time, whatever the order in which the threads take their steps and the characters are typed: the screen of the program `complete` shows the prompt and what belongs to some of the characters typed, those that
    have been handled. The scheduler is left when the last line, which ends the session, has been handled, and nothing typed after it is. Missing: as for C113, lines for which the behaviour is undefined; other keys than characters and Enter (before the
    end of the session). -/
theorem C135_screen_partial (fuel : Nat) (pf : Platform) (b : Bool) (p : Platform) (manual : α → α) (tt : α) (tty : Bool) (l : Local.St Plugins.St Storage.Volatile α) (s : Program.St Plugins.St Storage.Volatile α) (es : List (Program.Ev α)) (ls : List Str) (x rest : Str)
    (h : Play pf b fuel (Desk.start tty) ls x) (h0 : Local.create (Plugins.app pf b) manual tt 200 (Plugins.boot ⟨false, false, false⟩) ⟨⟨false, tty, false⟩, []⟩ = .ok (l, none)) (hc : ∀ e ∈ es, Props.Calm e)
    (ht : Props.Program.typed es <+: enter (ls ++ [x]) ++ rest) (hr : Program.run (Plugins.app pf b) (·.stopped) (fuel + 1) p manual es ⟨l, .run⟩ = .ok (some (s, none))) :
    ∃ k o, k <+: Props.Program.typed es ∧ k <+: enter (ls ++ [x]) ∧ Scene b (Desk.start tty) k o ∧ s.loc.proc.w.io.out = (Desk.start tty).prompt ++ o ∧
      (s.phase ≠ .run → k = enter (ls ++ [x])) ∧ s.loc.proc.w.app.ub = false ∧ (k = enter (ls ++ [x]) → ∀ s' o, Dialogue b (Desk.start tty) ls s' o → s.loc.proc.w.app.loaded.map (·.plug) = s'.loaded) := by
  have g := inTurn_run es (inTurn_create (stopped := (·.stopped)) (fuel := fuel + 1) (p := p) h0) hc hr
  rw [List.nil_append] at g
  have hb := play_plainly h
  obtain ⟨k1, k2, k3, k4⟩ := goes_handled hb ht (play_goes h h0) g
  obtain ⟨q, o, g1, g2, g3, g4, g5, g6⟩ := play_at h h0 _ (List.take_prefix s.loc.handled _)
  rw [k3] at g1
  cases g1
  exact ⟨_, o, handled_typed hb ht g, List.take_prefix _ _, g2, g3, fun hp => g4.1 (g.after hp).1, g5, g6⟩

/-- **C135** (partial) Nothing goes wrong: the behaviour is defined, and no exception leaves the scheduler. -/
theorem C135_defined_partial (fuel : Nat) (pf : Platform) (b : Bool) (p : Platform) (manual : α → α) (tt : α) (tty : Bool) (l : Local.St Plugins.St Storage.Volatile α) (es : List (Program.Ev α)) (ls : List Str) (x rest : Str)
    (h : Play pf b fuel (Desk.start tty) ls x) (h0 : Local.create (Plugins.app pf b) manual tt 200 (Plugins.boot ⟨false, false, false⟩) ⟨⟨false, tty, false⟩, []⟩ = .ok (l, none)) (hc : ∀ e ∈ es, Props.Calm e)
    (ht : Props.Program.typed es <+: enter (ls ++ [x]) ++ rest) :
    Program.run (Plugins.app pf b) (·.stopped) (fuel + 1) p manual es ⟨l, .run⟩ = .ok none ∨ ∃ s, Program.run (Plugins.app pf b) (·.stopped) (fuel + 1) p manual es ⟨l, .run⟩ = .ok (some (s, none)) :=
  goes_run (play_plainly h) (play_goes h h0) es (inTurn_create h0) hc (by rw [List.nil_append]; exact ht)

/-- **C135** (partial) When neither thread can do anything more (which is so after a bounded number of steps, `C90_bounded`): the program waits for input, and the screen shows everything typed and the answers; or it is over, and the
    screen shows all of the lines, the answers and the farewell; or this is so but for the end of the program, which waits for the rest of half an escape sequence that has been typed after the end of the session. -/
theorem C135_rest_partial (fuel : Nat) (pf : Platform) (b : Bool) (p : Platform) (manual : α → α) (tt : α) (tty : Bool) (l : Local.St Plugins.St Storage.Volatile α) (s : Program.St Plugins.St Storage.Volatile α) (es : List (Program.Ev α)) (ls : List Str) (x rest : Str)
    (h : Play pf b fuel (Desk.start tty) ls x) (h0 : Local.create (Plugins.app pf b) manual tt 200 (Plugins.boot ⟨false, false, false⟩) ⟨⟨false, tty, false⟩, []⟩ = .ok (l, none)) (hc : ∀ e ∈ es, Props.Calm e)
    (ht : Props.Program.typed es <+: enter (ls ++ [x]) ++ rest) (hr : Program.run (Plugins.app pf b) (·.stopped) (fuel + 1) p manual es ⟨l, .run⟩ = .ok (some (s, none)))
    (hq : ∀ e, Moves e → Program.step (Plugins.app pf b) (·.stopped) (fuel + 1) p manual s e = .ok none) :
    ∃ o, s.loc.proc.w.io.out = (Desk.start tty).prompt ++ o ∧
      ((s.phase = .run ∧ Props.Program.typed es <+: enter (ls ++ [x]) ∧ Props.Program.typed es ≠ enter (ls ++ [x]) ∧ Scene b (Desk.start tty) (Props.Program.typed es) o) ∨
       (s.phase = .over ∧ enter (ls ++ [x]) <+: Props.Program.typed es ∧ Scene b (Desk.start tty) (enter (ls ++ [x])) o) ∨
       (s.phase = .joining ∧ enter (ls ++ [x]) <+: Props.Program.typed es ∧ Scene b (Desk.start tty) (enter (ls ++ [x])) o ∧ (decode p .first (Props.Program.typed es)).1 ≠ .first)) := by
  have g := inTurn_run es (inTurn_create (stopped := (·.stopped)) (fuel := fuel + 1) (p := p) h0) hc hr
  rw [List.nil_append] at g
  have hb := play_plainly h
  obtain ⟨k1, k2, k3, k4⟩ := goes_handled hb ht (play_goes h h0) g
  obtain ⟨q, o, g1, g2, g3, g4, _⟩ := play_at h h0 _ (List.take_prefix s.loc.handled _)
  rw [k3] at g1
  cases g1
  have hty := handled_typed hb ht g
  refine ⟨o, g3, ?_⟩
  rcases program_rest _ _ _ p manual _ _ s g hq with h1 | ⟨h1, h2, h3, h4⟩ | ⟨h1, h2⟩
  · have e := g4.1 (g.after (by rw [h1]; simp)).1
    rw [e] at hty g2
    exact .inr (.inl ⟨h1, hty, g2⟩)
  · have hlt : s.loc.handled < (enter (ls ++ [x])).length := by
      rcases Nat.lt_or_ge s.loc.handled (enter (ls ++ [x])).length with hlt | hge
      · exact hlt
      · have := k4.2 (by omega)
        rw [h2] at this; cases this
    have hpre : Props.Program.typed es <+: enter (ls ++ [x]) := by
      rcases Nat.le_total (Props.Program.typed es).length (enter (ls ++ [x])).length with hle | hle
      · exact List.prefix_of_prefix_length_le ht (List.prefix_append _ _) hle
      · obtain ⟨t, htt⟩ := List.prefix_of_prefix_length_le (List.prefix_append _ _) ht hle
        have := congrArg List.length h4
        rw [← htt, decode_append, decode_plainly p _ hb] at this
        simp only [List.length_append, List.length_map] at this
        omega
    have hlen : s.loc.handled = (Props.Program.typed es).length := by
      rw [h3, h4, decode_plainly p _ (fun c hc => hb c (hpre.subset hc)), List.length_map]
    have e : (enter (ls ++ [x])).take s.loc.handled = Props.Program.typed es := by
      obtain ⟨t, htt⟩ := hpre
      rw [← htt, hlen, List.take_left]
    rw [e] at g2
    refine .inl ⟨h1, hpre, fun hx => ?_, g2⟩
    rw [hlen, hx] at hlt
    omega
  · have e := g4.1 (g.after (by rw [h1]; simp)).1
    rw [e] at hty g2
    exact .inr (.inr ⟨h1, hty, g2, h2⟩)


/-- **C135** (partial) When the program is over, the plugins that are still loaded are destroyed, in an order that is not specified by the language; each says so. -/
theorem C135_after_partial (fuel : Nat) (pf : Platform) (b : Bool) (p : Platform) (manual : α → α) (tt : α) (tty : Bool) (l : Local.St Plugins.St Storage.Volatile α) (s : Program.St Plugins.St Storage.Volatile α) (es : List (Program.Ev α)) (ls : List Str) (x rest : Str)
    (h : Play pf b fuel (Desk.start tty) ls x) (h0 : Local.create (Plugins.app pf b) manual tt 200 (Plugins.boot ⟨false, false, false⟩) ⟨⟨false, tty, false⟩, []⟩ = .ok (l, none)) (hc : ∀ e ∈ es, Props.Calm e)
    (ht : Props.Program.typed es <+: enter (ls ++ [x]) ++ rest) (hr : Program.run (Plugins.app pf b) (·.stopped) (fuel + 1) p manual es ⟨l, .run⟩ = .ok (some (s, none))) (hp : s.phase = .over)
    (order : List Item → List Item) (ho : ∀ l, (order l).Perm l) (s' : Desk) (o : Str) (hd : Dialogue b (Desk.start tty) ls s' o) :
    ∃ qs : List Plug, qs.Perm s'.loaded ∧ Plugins.farewell s.loc.proc.w.app order = unloadings qs := by
  obtain ⟨k, _, _, _, _, _, h2, _, h3⟩ := C135_screen_partial fuel pf b p manual tt tty l s es ls x rest h h0 hc ht hr
  have hl := h3 (h2 (by rw [hp]; simp)) s' o hd
  refine ⟨(order s.loc.proc.w.app.loaded).map (·.plug), by rw [← hl]; exact (ho _).map _, ?_⟩
  unfold Plugins.farewell unloadings
  rw [List.flatMap_map]
  simp only [called_name]

/-! ### Lines for which the behaviour is undefined -/

theorem prompt_kinds (w : PWorld) : (∃ io, prompt w = .ok { w with io := io }) ∨ prompt w = .error (.ub .dangling) := by
  unfold prompt
  split
  · exact .inl ⟨w.io, rfl⟩
  · split
    · exact .inl ⟨_, rfl⟩
    · exact .inr rfl

theorem lost_line {p : Platform} {b : Bool} {fuel : Nat} {l : Str} {w : PWorld} (h : Lost (feed (Plugins.app p b) fuel l w)) :
    (∃ u, enterLine (Plugins.app p b) fuel l w = .error (.ub u)) ∨ ∃ q, enterLine (Plugins.app p b) fuel l w = .ok (q, none) ∧ q.w.app.ub = true := by
  rcases h with ⟨w', h1, h2⟩ | ⟨u, h⟩
  · simp only [enterLine, h1]
    rcases h2 with h2 | ⟨h2, h3⟩
    · rcases prompt_kinds w' with ⟨io, h⟩ | h
      · exact .inr ⟨_, by rw [h], h2⟩
      · exact .inl ⟨_, by rw [h]⟩
    · exact .inl ⟨.dangling, by simp only [prompt, h2, Bool.false_eq_true, if_false, h3]⟩
  · exact .inl ⟨u, by simp only [enterLine, h]⟩

theorem lines_here (p : Platform) (b : Bool) (fuel : Nat) {s s' : Desk} {ls : List Str} {o : Str} (hd : Dialogue b s ls s' o) : ∀ {w : PWorld}, At s w → s.prompted = s → (∀ l ∈ ls, Printable l) →
    (∀ a l c s1 o1, ls = a ++ l :: c → Dialogue b s a s1 o1 → ¬ Fails b s1 l ∧ Within p fuel s1 l) →
    ∃ w', Processor.run (Plugins.app p b) (fuel + 1) ((enter ls).map keyOf) ⟨w, ⟨[], 0⟩, true⟩ = .ok (⟨w', ⟨[], 0⟩, true⟩, none) ∧ At s' w' ∧ s'.prompted = s' := by
  induction hd with
  | nil => intro w h hp _ _; exact ⟨w, rfl, h, hp⟩
  | @line s s1 s2 l ls t o ha _ ih =>
    intro w h hp pl hw
    obtain ⟨w1, h1, h2, h3⟩ := line_here p b (fuel + 1) h hp (pl l (by simp))
    rcases line_step p b fuel h1 (hw [] l ls s [] rfl .nil).2 with ⟨w2, e1, _⟩ | ⟨e1, _⟩ | ⟨w2, s3, t', _, e3, e4, e5, e6⟩
    · exact (answer_no_quit e1 ha).elim
    · exact absurd e1 (hw [] l ls s [] rfl .nil).1
    · obtain ⟨rfl, rfl⟩ := answer_unique ha e4
      obtain ⟨w3, p1, p2, p3⟩ := prompt_here e5
      have hr : enterLine (Plugins.app p b) (fuel + 1) l w1 = .ok (⟨w3, ⟨[], 0⟩, true⟩, none) := by simp only [enterLine, e3, p1]
      obtain ⟨w4, g1, g2⟩ := ih p2 (desk_prompted _) (fun k hk => pl k (by simp [hk])) (fun a k c s3 o3 e d => hw (l :: a) k c s3 _ (by rw [e]; rfl) (.line ha d))
      refine ⟨w4, ?_, g2⟩
      rw [show enter (l :: ls) = l ++ bs!"\n" ++ enter ls by simp [enter], List.map_append, Props.proc_run_append, h3, hr]
      exact g1

/-- **C135** A line that fails after others is undefined behaviour: that of the program, or that of the plugin (which is marked in its state). -/
theorem C135_undefined (pf : Platform) (b : Bool) (fuel : Nat) (manual : α → α) (tt : α) (tty : Bool) (l : Local.St Plugins.St Storage.Volatile α) (ls : List Str) (x : Str) (s' : Desk) (o : Str)
    (h0 : Local.create (Plugins.app pf b) manual tt 200 (Plugins.boot ⟨false, false, false⟩) ⟨⟨false, tty, false⟩, []⟩ = .ok (l, none)) (hp : ∀ l ∈ ls ++ [x], Printable l) (hd : Dialogue b (Desk.start tty) ls s' o)
    (hw : ∀ a l c s1 o1, ls = a ++ l :: c → Dialogue b (Desk.start tty) a s1 o1 → ¬ Fails b s1 l ∧ Within pf fuel s1 l) (hx : Within pf fuel s' x) (hf : Fails b s' x) :
    (∃ u, Processor.run (Plugins.app pf b) (fuel + 1) ((enter (ls ++ [x])).map keyOf) l.proc = .error (.ub u)) ∨
      ∃ q, Processor.run (Plugins.app pf b) (fuel + 1) ((enter (ls ++ [x])).map keyOf) l.proc = .ok (q, none) ∧ q.w.app.ub = true := by
  obtain ⟨w, h1, h2, _⟩ := created h0
  obtain ⟨w1, g1, g2, g3⟩ := lines_here pf b fuel hd h2 (by cases tty <;> rfl) (fun l hl => hp l (by simp [hl])) hw
  obtain ⟨w2, k1, _, k3⟩ := line_here pf b (fuel + 1) g2 g3 (hp x (by simp))
  have hrun : Processor.run (Plugins.app pf b) (fuel + 1) ((enter (ls ++ [x])).map keyOf) l.proc = enterLine (Plugins.app pf b) (fuel + 1) x w2 := by
    rw [show enter (ls ++ [x]) = enter ls ++ (x ++ bs!"\n") by simp [enter], List.map_append, Props.proc_run_append, h1, g1]
    exact k3
  rw [hrun]
  rcases line_step pf b fuel k1 hx with ⟨_, e, _⟩ | ⟨_, e⟩ | ⟨_, _, _, e, _⟩
  · exact (fails_no_quits hf e).elim
  · exact lost_line e
  · exact absurd hf e

/-! ### Examples -/

/-- The program, and lines typed one after the other. -/
def run (b tty : Bool) (t : Str) : Except Fault (Processor.Proc Plugins.St Storage.Volatile × Option Exn) :=
  match Local.create (α := Unit) (Plugins.app plat b) id () 200 (Plugins.boot ⟨false, false, false⟩) ⟨⟨false, tty, false⟩, []⟩ with
  | .ok (l, none) => Processor.run (Plugins.app plat b) 3 (t.map keyOf) l.proc
  | _ => .error .stackOverflow

/-- **C135**, the full statement is refuted: the plugin in whose menu the session is can be unloaded; the prompt then asks for the name of a menu that no longer exists. -/
theorem C135_refuted_unload : run true true (enter [bs!"load strings", bs!"strings", bs!".. unload strings"]) matches .error (.ub .dangling) := by decide +kernel

/-- **C135** A sum can be too large. -/
theorem C135_refuted_sum : (match run true true (enter [bs!"load arithmetic", bs!"arithmetic add 2147483647 1"]) with | .ok (q, none) => q.w.app.ub | _ => false) = true := by decide +kernel

/-- **C135** The first line can refer to the history, which is empty. -/
theorem C135_refuted_history : run true true (enter [bs!"! 0"]) matches .error (.ub .outOfRange) := by decide +kernel

theorem play_cons {p : Platform} {b : Bool} {fuel : Nat} {s s' : Desk} {l x t : Str} {ls : List Str} (hp : Printable l) (ha : Answer b s l s' t) (hf : ¬ Fails b s l) (hw : Within p fuel s l) (h : Play p b fuel s'.prompted ls x) :
    Play p b fuel s (l :: ls) x := by
  refine ⟨?_, ?_, ?_⟩
  · intro k hk
    rcases List.mem_cons.1 hk with rfl | hk
    · exact hp
    · exact h.lines k hk
  · intro a k c s2 o e d
    cases a with
    | nil =>
      cases d
      simp only [List.nil_append, List.cons.injEq] at e
      obtain ⟨rfl, rfl⟩ := e
      exact ⟨hf, fun hq => answer_no_quit hq ha, hw⟩
    | cons y a =>
      simp only [List.cons_append, List.cons.injEq] at e
      obtain ⟨rfl, e⟩ := e
      cases d with
      | line d1 d2 =>
        obtain ⟨rfl, rfl⟩ := answer_unique ha d1
        exact h.fine a k c s2 _ e d2
  · intro s2 o d
    cases d with
    | line d1 d2 =>
      obtain ⟨rfl, rfl⟩ := answer_unique ha d1
      exact h.last s2 _ d2

theorem play_end {p : Platform} {b : Bool} {fuel : Nat} {s : Desk} {x : Str} (hp : Printable x) (hq : Quits s x) (hw : Within p fuel s x) : Play p b fuel s [] x := by
  refine ⟨?_, ?_, ?_⟩
  · intro k hk
    rw [List.nil_append, List.mem_singleton] at hk
    subst hk
    exact hp
  · intro a k c s2 o e
    cases a <;> cases e
  · intro s2 o d
    cases d
    exact ⟨hq, hw⟩

theorem not_bang {l : Str} {toks : List Str} (hl : Lex.Line l toks) (hn : toks.head? ≠ some bs!"!") : ¬ Bang l := by
  rintro ⟨n, a, h, _⟩
  cases line_same hl h
  exact hn rfl


theorem plain_fine {b : Bool} {s : Desk} {l : Str} {toks : List Str} (hl : Lex.Line l toks) (hn : ¬ Bang l) (h : ∀ r, Does b s s.place toks r → r ≠ .undefined ∧ ¬ Pulls s r) : ¬ Fails b s l := by
  intro hf
  cases hf with
  | does x d e => cases line_same x hl; exact e.elim (h _ d).1 (h _ d).2
  | again x => exact hn ⟨_, x⟩
  | empty x => exact hn x

/-- A plugin is loaded, and one of its commands is used from its menu. -/
theorem play_plugin (b : Bool) : Play plat b 1 (Desk.start true) [bs!"load strings", bs!"strings", bs!"upper abc"] bs!"exit" := by
  have l1 : Lex.Line bs!"load strings" [bs!"load", bs!"strings"] := (split_iff _ _).1 rfl
  have l2 : Lex.Line bs!"strings" [bs!"strings"] := (split_iff _ _).1 rfl
  have l3 : Lex.Line bs!"upper abc" [bs!"upper", bs!"abc"] := (split_iff _ _).1 rfl
  have l4 : Lex.Line bs!"exit" [bs!"exit"] := (split_iff _ _).1 rfl
  have d1 : Does b (Desk.start true) .root [bs!"load", bs!"strings"] (.loads .strings) := 
    .here (does := fun args x => ∃ a, args = [a] ∧ ((∃ p, a = called p ∧ x = .loads p) ∨ ((∀ p, a ≠ called p) ∧ x = .says []))) (.tail _ (.tail _ (.head _))) ⟨_, rfl, .inl ⟨.strings, rfl, rfl⟩⟩
  have p1 : ¬ Pulls (Desk.start true) (.loads .strings) := no_pull (by simp)
  have d2 : ∀ s : Desk, .strings ∈ s.loaded → Does b s .root [bs!"strings"] (.goes (.plug .strings)) := fun s h => .down (b := .plug .strings) ⟨rfl, _, h, rfl⟩
  have p2 : ∀ s, ¬ Pulls s (.goes (.plug .strings)) := fun s => no_pull (by simp)
  have d3 : ∀ s : Desk, Does b s (.plug .strings) [bs!"upper", bs!"abc"] (.says bs!"ABC\n") := fun s =>
    .here (does := fun args x => ∃ a, args = [a] ∧ x = .says (a.map capital ++ bs!"\n")) (.tail _ (.head _)) ⟨_, rfl, rfl⟩
  have p3 : ∀ s, ¬ Pulls s (.says bs!"ABC\n") := fun s => no_pull (by simp)
  have rd : ∀ l ∈ [bs!"load strings", bs!"strings", bs!"upper abc", bs!"exit"], Printable l ∧ Readable plat l := by unfold Printable Readable; decide
  have w : ∀ {l toks}, Lex.Line l toks → l ∈ [bs!"load strings", bs!"strings", bs!"upper abc", bs!"exit"] → toks.head? ≠ some bs!"!" → ∀ s, Within plat 1 s l := fun hl h1 h2 s => .plain (rd _ h1).2 (not_bang hl h2)
  refine play_cons (rd _ (by simp)).1 (.does l1 d1 (by simp) p1) (plain_fine l1 (not_bang l1 (by decide)) fun r d => by cases C135_table d1 d; exact ⟨by simp, p1⟩) (w l1 (by simp) (by decide) _) ?_
  refine play_cons (rd _ (by simp)).1 (.does l2 (d2 _ (.head _)) (by simp) (p2 _)) (plain_fine l2 (not_bang l2 (by decide)) fun r d => by cases C135_table (d2 _ (.head _)) d; exact ⟨by simp, p2 _⟩) (w l2 (by simp) (by decide) _) ?_
  refine play_cons (rd _ (by simp)).1 (.does l3 (d3 _) (by simp) (p3 _)) (plain_fine l3 (not_bang l3 (by decide)) fun r d => by cases C135_table (d3 _) d; exact ⟨by simp, p3 _⟩) (w l3 (by simp) (by decide) _) ?_
  exact play_end (rd _ (by simp)).1 (.exit l4) (w l4 (by simp) (by decide) _)

/-- What it looks like, on something that is not a terminal. -/
example : (match run true false (enter [bs!"load strings", bs!"strings", bs!"upper abc", bs!"exit"]) with | .ok (q, none) => some (q.w.io.out, Plugins.farewell q.w.app id) | _ => none) =
    some (bs!"cli> load strings\r\nPlugin strings loaded\ncli> strings\r\nstrings> upper abc\r\nABC\nstrings> exit\r\nClosing App...\nGoodbye and thanks for all the fish.\n", bs!"Plugin strings unloaded\n") := by decide +kernel

/-- The hypotheses of `C135_undefined` are satisfied. -/
example (b : Bool) : Fails b (Desk.start true) bs!"! 0" ∧ Within plat 1 (Desk.start true) bs!"! 0" := by
  have hb : Recalls bs!"! 0" 0 := Showcase.recalls_one
  refine ⟨.empty ⟨_, hb⟩ (.inr (by decide)), .again (by unfold Readable; decide) hb fun c hc => ?_⟩
  exact absurd hc (by rw [show ((Desk.start true).skipped bs!"! 0").book.listing = [] from rfl]; simp)

end Verif.Workbench
