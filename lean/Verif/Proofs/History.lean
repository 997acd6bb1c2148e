import Verif.Model.History
import Verif.Spec.HistoryList

/-! Helper lemmas for the command history. -/

set_option linter.unusedSimpArgs false

namespace Verif
open Verif.HistoryList

/-! ### Lists -/

theorem lastN_of_le {α} {n : Nat} {l : List α} (h : l.length ≤ n) : lastN n l = l := by
  unfold lastN
  rw [Nat.sub_eq_zero_of_le h]; rfl

theorem length_lastN {α} (n : Nat) (l : List α) : (lastN n l).length = min n l.length := by
  simp [lastN]; omega

theorem lastN_reverse {α} (n : Nat) (l : List α) : lastN n l.reverse = (l.take n).reverse := by
  simp only [lastN, List.length_reverse]
  rw [List.reverse_take]

theorem lastN_append_lastN {α} (n : Nat) (a b : List α) : lastN n (lastN n a ++ b) = lastN n (a ++ b) := by
  simp only [lastN, List.length_append, List.length_drop]
  by_cases h : a.length ≤ n
  · simp [Nat.sub_eq_zero_of_le h]
  · rw [← List.drop_append_of_le_length (by omega : a.length - n ≤ a.length), List.drop_drop]
    congr 1; omega

theorem lastN_lastN {α} (n m : Nat) (l : List α) : lastN n (lastN m l) = lastN (min n m) l := by
  simp only [lastN, List.length_drop, List.drop_drop]
  congr 1; omega

theorem lastN_append_right {α} (n : Nat) (a b : List α) (h : n ≤ b.length) : lastN n (a ++ b) = lastN n b := by
  simp only [lastN, List.length_append]
  rw [List.drop_append]
  have : a.length + b.length - n - a.length = b.length - n := by omega
  rw [this, List.drop_eq_nil_of_le (by omega)]; simp

theorem mem_number {f : Nat} {l : List Str} {id : Nat} {c : Str} :
    (id, c) ∈ number f l ↔ ∃ i, l[i]? = some c ∧ id = f + i := by
  induction l generalizing f with
  | nil => simp [number]
  | cons x xs ih =>
    simp only [number, List.mem_cons, Prod.mk.injEq, ih]
    constructor
    · rintro (⟨rfl, rfl⟩ | ⟨i, h, rfl⟩)
      · exact ⟨0, by simp, by simp⟩
      · exact ⟨i + 1, by simpa using h, by omega⟩
    · rintro ⟨i, h, rfl⟩
      cases i with
      | zero => left; simp at h; exact ⟨by omega, h.symm⟩
      | succ i => right; exact ⟨i, by simpa using h, by omega⟩

theorem number_append (f : Nat) (a b : List Str) :
    number f (a ++ b) = number f a ++ number (f + a.length) b := by
  induction a generalizing f with
  | nil => simp [number]
  | cons x xs ih => simp [number, ih]; congr 1; omega

theorem length_number (f : Nat) (l : List Str) : (number f l).length = l.length := by
  induction l generalizing f with
  | nil => rfl
  | cons x xs ih => simp [number, ih]

theorem map_snd_number (f : Nat) (l : List Str) : (number f l).map (·.2) = l := by
  induction l generalizing f with
  | nil => rfl
  | cons x xs ih => simp [number, ih]

theorem number_increasing (f : Nat) (l : List Str) : (number f l).Pairwise (fun a b => a.1 < b.1) := by
  induction l generalizing f with
  | nil => exact .nil
  | cons x xs ih =>
    refine .cons ?_ (ih _)
    rintro ⟨id, c⟩ h
    obtain ⟨i, _, rfl⟩ := mem_number.1 h
    show f < f + 1 + i
    omega

theorem drop_number (k f : Nat) (l : List Str) : (number f l).drop k = number (f + k) (l.drop k) := by
  induction k generalizing f l with
  | zero => rfl
  | succ k ih =>
    cases l with
    | nil => simp [number]
    | cons x xs => simp [number, ih]; congr 1; omega

namespace History
open Verif.HistoryList

/-- Abstraction: the listing of a history, oldest entry first. -/
def listing (h : History) : List (Nat × Str) := number h.idOfOldest h.buffer.reverse

/-- Invariant of every history reachable through the public operations. -/
structure WF (h : History) : Prop where
  bound : h.buffer.length ≤ h.maxSize
  browse : h.mode = .browsing → h.current < h.buffer.length
  ins : h.mode = .inserting → h.current = 0

theorem wf_init (n : Nat) : WF (init n) := ⟨by simp [init], by simp [init], by simp [init]⟩

theorem insert_buffer (h : History) (hb : h.buffer.length ≤ h.maxSize) (item : Str) :
    (insert h item).buffer = (item :: h.buffer).take h.maxSize := by
  unfold insert
  simp only [List.length_cons]
  split
  · rename_i hgt
    have : h.buffer.length = h.maxSize := by omega
    rw [List.dropLast_eq_take]
    simp [this]
  · rename_i hle
    rw [List.take_of_length_le (by simp; omega)]

theorem insert_maxSize (h : History) (item : Str) : (insert h item).maxSize = h.maxSize := by
  unfold insert; simp only; split <;> rfl
theorem insert_mode (h : History) (item : Str) : (insert h item).mode = h.mode := by
  unfold insert; simp only; split <;> rfl
theorem insert_current (h : History) (item : Str) : (insert h item).current = h.current := by
  unfold insert; simp only; split <;> rfl
theorem insert_commands (h : History) (item : Str) : (insert h item).commands = h.commands := by
  unfold insert; simp only; split <;> rfl

theorem insert_bound (h : History) (hb : h.buffer.length ≤ h.maxSize) (item : Str) :
    (insert h item).buffer.length ≤ (insert h item).maxSize := by
  rw [insert_buffer h hb, insert_maxSize]; simp; omega

theorem insert_listing (h : History) (hb : h.buffer.length ≤ h.maxSize) (item : Str) :
    listing (insert h item) = lastN h.maxSize (number h.idOfOldest (h.buffer.reverse ++ [item])) := by
  unfold listing insert
  simp only [List.length_cons]
  split
  · rename_i hgt
    have hl : h.buffer.length = h.maxSize := by omega
    simp only [lastN, length_number, List.length_append, List.length_reverse, List.length_singleton]
    rw [drop_number]
    have : h.buffer.length + 1 - h.maxSize = 1 := by omega
    rw [this, List.dropLast_eq_take]
    congr 1
    have h2 : h.buffer.reverse ++ [item] = (item :: h.buffer).reverse := by simp
    rw [h2, List.reverse_take]
    congr 1
    simp
  · rename_i hle
    simp only [List.reverse_cons]
    rw [lastN_of_le]
    simp [length_number]; omega

theorem insert_nonempty (h : History) (hb : h.buffer.length ≤ h.maxSize) (hm : 1 ≤ h.maxSize) (item : Str) :
    (insert h item).buffer ≠ [] := by
  rw [insert_buffer h hb]
  cases hn : h.maxSize with
  | zero => omega
  | succ n => simp

/-- Identifier that the next inserted entry gets. -/
def nextId (h : History) : Nat := h.idOfOldest + h.buffer.length

theorem insert_nextId (h : History) (item : Str) : nextId (insert h item) = nextId h + 1 := by
  unfold nextId insert
  simp only [List.length_cons]
  split
  · simp; omega
  · simp; omega

/-! ### Loading -/

theorem load_spec (cmds : List Str) : ∀ h : History, h.buffer.length ≤ h.maxSize →
    listing (loadCommands h cmds) = lastN h.maxSize (number h.idOfOldest (h.buffer.reverse ++ cmds)) ∧
    (loadCommands h cmds).buffer.length ≤ h.maxSize ∧
    (loadCommands h cmds).maxSize = h.maxSize ∧ (loadCommands h cmds).mode = h.mode ∧
    (loadCommands h cmds).current = h.current ∧ (loadCommands h cmds).commands = h.commands := by
  induction cmds with
  | nil =>
    intro h hb
    refine ⟨?_, hb, rfl, rfl, rfl, rfl⟩
    simp only [loadCommands, List.foldl_nil, List.append_nil, listing]
    rw [lastN_of_le]; simp [length_number, hb]
  | cons c cs ih =>
    intro h hb
    have hb' := insert_bound h hb c
    obtain ⟨h1, h2, h3, h4, h5, h6⟩ := ih (insert h c) hb'
    have e : loadCommands h (c :: cs) = loadCommands (insert h c) cs := rfl
    rw [e]
    refine ⟨?_, by rw [insert_maxSize] at h2; exact h2, by rw [h3, insert_maxSize], by rw [h4, insert_mode],
      by rw [h5, insert_current], by rw [h6, insert_commands]⟩
    rw [h1, insert_maxSize, number_append]
    have hl := insert_listing h hb c
    unfold listing at hl
    rw [hl]
    rw [lastN_append_lastN]
    have hid : (insert h c).idOfOldest + (insert h c).buffer.reverse.length
        = h.idOfOldest + (h.buffer.reverse ++ [c]).length := by
      have := insert_nextId h c
      unfold nextId at this
      simp; omega
    rw [hid, ← number_append]
    simp

theorem wf_load (n : Nat) (cmds : List Str) : WF (loadCommands (init n) cmds) := by
  obtain ⟨h1, h2, h3, h4, h5, h6⟩ := load_spec cmds (init n) (by simp [init])
  exact ⟨by rw [h3]; exact h2, by rw [h4]; simp [init], by intro _; rw [h5]; rfl⟩

/-! ### The operations -/

theorem newCommand_ok {h : History} (hw : WF h) (item : Str) :
    ∃ h', newCommand h item = .ok h' ∧ WF h' ∧ h'.maxSize = h.maxSize ∧ h'.mode = .inserting ∧
      h'.commands = h.commands + 1 ∧ (1 ≤ h.maxSize → h'.buffer ≠ []) := by
  unfold newCommand
  cases hm : h.mode with
  | browsing =>
    have hc := hw.browse hm
    simp only
    match hb : h.buffer with
    | [] => rw [hb] at hc; simp at hc
    | x :: rest =>
      have hbd := hw.bound
      rw [hb] at hbd
      simp only [List.length_cons] at hbd
      simp only
      split
      · rename_i h1
        refine ⟨_, rfl, ⟨by simp; omega, by simp, by simp⟩, rfl, rfl, rfl, ?_⟩
        rintro - h2
        simp only at h2
        rw [h2] at h1; simp at h1
      · exact ⟨_, rfl, ⟨by simp; omega, by simp, by simp⟩, rfl, rfl, rfl, by simp⟩
  | inserting =>
    simp only
    split
    · rename_i h1
      refine ⟨_, rfl, ⟨?_, by simp, ?_⟩, ?_, rfl, ?_, ?_⟩
      · exact insert_bound { h with commands := h.commands + 1, current := 0, mode := .inserting } hw.bound item
      · intro _; simp [insert_current]
      · simp [insert_maxSize]
      · simp [insert_commands]
      · intro h2
        exact insert_nonempty { h with commands := h.commands + 1, current := 0, mode := .inserting } hw.bound h2 item
    · rename_i h1
      refine ⟨_, rfl, ⟨hw.bound, by simp, by simp⟩, rfl, rfl, rfl, ?_⟩
      rintro - h2
      simp only at h2
      rw [h2] at h1; simp at h1

theorem getCurrent_ok {h : History} (hc : h.current < h.buffer.length) :
    getCurrent h = .ok h.buffer[h.current] := by
  unfold getCurrent
  rw [List.getElem?_eq_getElem hc]

/-- Closed form of `Previous` while inserting. -/
theorem previous_inserting {h : History} (hb : h.buffer.length ≤ h.maxSize) (hm : 1 ≤ h.maxSize)
    (hmd : h.mode = .inserting) (line : Str) :
    ∃ s, previous h line = .ok (s, { insert h line with
        mode := .browsing, current := if (insert h line).buffer.length > 1 then 1 else 0 }) ∧
      (insert h line).buffer[if (insert h line).buffer.length > 1 then 1 else 0]? = some s := by
  have hne := insert_nonempty h hb hm line
  have hlt : (if (insert h line).buffer.length > 1 then 1 else 0) < (insert h line).buffer.length := by
    have : 0 < (insert h line).buffer.length := List.length_pos_iff.2 hne
    split <;> omega
  have := getCurrent_ok (h := { insert h line with
    mode := .browsing, current := if (insert h line).buffer.length > 1 then 1 else 0 }) hlt
  refine ⟨_, ?_, List.getElem?_eq_getElem hlt⟩
  unfold previous
  rw [hmd]
  simp only [this]
  rfl

/-- Closed form of `Previous` while browsing. -/
theorem previous_browsing {h : History} (hc : h.current < h.buffer.length)
    (hmd : h.mode = .browsing) (line : Str) :
    ∃ s, previous h line = .ok (s, { h with
        buffer := h.buffer.set h.current line, current := min (h.current + 1) (h.buffer.length - 1) }) ∧
      (h.buffer.set h.current line)[min (h.current + 1) (h.buffer.length - 1)]? = some s := by
  obtain ⟨M, buf, cur, cmds, mode, oid⟩ := h
  simp only at hc hmd
  subst hmd
  have hset : (buf.set cur line).length = buf.length := List.length_set
  have hlt : min (cur + 1) (buf.length - 1) < (buf.set cur line).length := by omega
  have := getCurrent_ok (h := ⟨M, buf.set cur line, min (cur + 1) (buf.length - 1), cmds, .browsing, oid⟩) hlt
  refine ⟨_, ?_, List.getElem?_eq_getElem hlt⟩
  unfold previous
  simp only [hc, if_true]
  have e : (if cur ≠ (buf.set cur line).length - 1 then
        (⟨M, buf.set cur line, cur + 1, cmds, .browsing, oid⟩ : History)
        else ⟨M, buf.set cur line, cur, cmds, .browsing, oid⟩)
      = ⟨M, buf.set cur line, min (cur + 1) (buf.length - 1), cmds, .browsing, oid⟩ := by
    split <;> congr 1 <;> omega
  rw [e, this]
  rfl

theorem previous_ok {h : History} (hw : WF h) (hm : 1 ≤ h.maxSize) (line : Str) :
    ∃ s h', previous h line = .ok (s, h') ∧ WF h' ∧ h'.maxSize = h.maxSize ∧ h'.mode = .browsing ∧
      h'.commands = h.commands ∧ h'.buffer[h'.current]? = some s := by
  cases hmd : h.mode with
  | browsing =>
    obtain ⟨s, h1, h2⟩ := previous_browsing (hw.browse hmd) hmd line
    refine ⟨s, _, h1, ⟨?_, ?_, ?_⟩, rfl, hmd, rfl, h2⟩
    · have := hw.bound; simpa using this
    · intro _; have := (List.getElem?_eq_some_iff.1 h2).1; exact this
    · simp [hmd]
  | inserting =>
    obtain ⟨s, h1, h2⟩ := previous_inserting hw.bound hm hmd line
    refine ⟨s, _, h1, ⟨?_, ?_, ?_⟩, insert_maxSize h line, rfl, insert_commands h line, h2⟩
    · exact insert_bound h hw.bound line
    · intro _; have := (List.getElem?_eq_some_iff.1 h2).1; exact this
    · simp

theorem next_ok {h : History} (hw : WF h) :
    ∃ s h', next h = .ok (s, h') ∧ WF h' ∧ h'.maxSize = h.maxSize ∧ h'.mode = h.mode ∧
      h'.buffer = h.buffer ∧ h'.idOfOldest = h.idOfOldest ∧ h'.commands = h.commands := by
  unfold next
  split
  · exact ⟨_, _, rfl, hw, rfl, rfl, rfl, rfl, rfl⟩
  · rename_i h1
    simp only [not_or] at h1
    have hmd : h.mode = .browsing := by
      cases hmd : h.mode with
      | browsing => rfl
      | inserting => exact absurd (hw.ins hmd) h1.2
    have hc := hw.browse hmd
    have hlt : h.current - 1 < h.buffer.length := by omega
    have := getCurrent_ok (h := { h with current := h.current - 1 }) hlt
    simp only
    rw [this]
    exact ⟨_, _, rfl, ⟨hw.bound, fun _ => hlt, by simp [hmd]⟩, rfl, rfl, rfl, rfl, rfl⟩

/-! ### Identifiers -/

theorem wsub_le {a b : Nat} (h : b ≤ a) : wsub a b = a - b := by simp [wsub, h]

theorem at_listing (h : History) (hne : h.idOfOldest + h.buffer.length ≠ 0) (id : Nat) (c : Str) :
    «at» h id = .ok (some c) ↔ (id, c) ∈ listing h := by
  unfold «at» idToIndex listing
  rw [wsub_le (by omega : 1 ≤ h.idOfOldest + h.buffer.length), mem_number]
  simp only
  by_cases hr : id < h.idOfOldest ∨ id > h.idOfOldest + h.buffer.length - 1
  · rw [if_pos hr]
    simp only [Except.ok.injEq, reduceCtorEq, false_iff, not_exists, not_and]
    intro i hi hid
    have := (List.getElem?_eq_some_iff.1 hi).1
    simp at this
    omega
  · rw [if_neg hr]
    simp only [not_or, Nat.not_lt] at hr
    have hlen : h.buffer.length ≠ 0 := by omega
    rw [wsub_le (by omega)]
    have hlt : h.idOfOldest + h.buffer.length - 1 - id < h.buffer.length := by omega
    simp only [List.getElem?_eq_getElem hlt, Except.ok.injEq, Option.some.injEq]
    constructor
    · rintro rfl
      refine ⟨id - h.idOfOldest, ?_, by omega⟩
      rw [List.getElem?_reverse (by omega)]
      rw [List.getElem?_eq_getElem (by omega)]
      congr 2; omega
    · rintro ⟨i, hi, rfl⟩
      have hil := (List.getElem?_eq_some_iff.1 hi).1
      simp at hil
      rw [List.getElem?_reverse hil] at hi
      rw [List.getElem?_eq_getElem (by omega)] at hi
      simp only [Option.some.injEq] at hi
      rw [← hi]
      congr 1; omega

theorem at_none (h : History) (hne : h.idOfOldest + h.buffer.length ≠ 0) (id : Nat) :
    «at» h id = .ok none ↔ ∀ c, (id, c) ∉ listing h := by
  constructor
  · intro hn c hc
    rw [(at_listing h hne id c).2 hc] at hn; simp at hn
  · intro hall
    cases ha : «at» h id with
    | ok o =>
      cases o with
      | none => rfl
      | some c => exact absurd ((at_listing h hne id c).1 ha) (hall c)
    | error e =>
      exfalso
      unfold «at» idToIndex at ha
      rw [wsub_le (by omega : 1 ≤ h.idOfOldest + h.buffer.length)] at ha
      simp only at ha
      by_cases hr : id < h.idOfOldest ∨ id > h.idOfOldest + h.buffer.length - 1
      · rw [if_pos hr] at ha; simp at ha
      · rw [if_neg hr] at ha
        simp only [not_or, Nat.not_lt] at hr
        rw [wsub_le (by omega)] at ha
        have hlt : h.idOfOldest + h.buffer.length - 1 - id < h.buffer.length := by omega
        simp [List.getElem?_eq_getElem hlt] at ha

theorem number_eq_map (f : Nat) (l : List Str) :
    number f l = (List.range l.length).map (fun i => (f + i, l[i]?.getD [])) := by
  induction l generalizing f with
  | nil => rfl
  | cons x xs ih =>
    simp only [number, List.length_cons, List.range_succ_eq_map, List.map_cons, List.map_map, ih]
    simp only [Nat.add_zero, List.getElem?_cons_zero, Option.getD_some, List.cons.injEq, true_and]
    apply List.map_congr_left
    intro i _
    simp; omega

theorem mapM_some {α β : Type} (f : α → Option β) (g : α → β) (l : List α) (h : ∀ a ∈ l, f a = some (g a)) :
    l.mapM f = some (l.map g) := by
  induction l with
  | nil => rfl
  | cons x xs ih =>
    simp only [List.mapM_cons, h x (by simp), ih (fun a ha => h a (by simp [ha]))]
    rfl

theorem show_eq (h : History) : «show» h = some (render (listing h)) := by
  unfold «show»
  have : (List.range h.buffer.length).mapM (fun i => do
      let j := h.buffer.length - 1 - i
      let id ← indexToId h j
      let cmd ← h.buffer[j]?
      return decimal id ++ [b%'\t'] ++ cmd ++ [b%'\n'] : Nat → Option Str)
      = some ((List.range h.buffer.length).map (fun i =>
          decimal (h.idOfOldest + i) ++ [b%'\t'] ++ (h.buffer.reverse[i]?.getD []) ++ [b%'\n'])) := by
    apply mapM_some
    intro i hi
    have hi : i < h.buffer.length := List.mem_range.1 hi
    have hj : h.buffer.length - 1 - i < h.buffer.length := by omega
    simp only [indexToId]
    rw [wsub_le (by omega : 1 ≤ h.idOfOldest + h.buffer.length), if_neg (by omega), wsub_le (by omega)]
    simp only [List.getElem?_eq_getElem hj, bind, Option.bind, pure]
    rw [List.getElem?_reverse hi, List.getElem?_eq_getElem hj]
    simp only [Option.getD_some]
    have e : h.idOfOldest + h.buffer.length - 1 - (h.buffer.length - 1 - i) = h.idOfOldest + i := by omega
    rw [e]
  simp only at this ⊢
  rw [this]
  simp only [bind, Option.bind, pure, render, listing, number_eq_map, List.length_reverse]
  rw [List.flatMap_map]
  rfl

end History
end Verif
