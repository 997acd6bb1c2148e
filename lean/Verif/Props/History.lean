import Verif.Proofs.HistoryOps

/-!
# Properties C21–C24, C28, C29, C33: the command history

`listing h` is the list of (identifier, command) pairs that the command `history` prints, oldest first (theorem
`C23_listing_shown` ties it to the printed text).
-/

set_option linter.unusedSimpArgs false

namespace Verif.Props
open Verif.History Verif.HistoryList

/-- Three commands entered in a history of size 3, `b` edited into `B` while browsing. -/
def sampleOps : List Op :=
  [.new bs!"a", .new bs!"b", .new bs!"c", .up bs!"d", .up bs!"c", .up bs!"B", .down, .new bs!"e", .bang bs!"! 2"]

/-- **C21** Whatever is loaded, typed, recalled, edited or re-executed, the listing never has more entries than configured. -/
theorem C21_history_bounded (size : Nat) (stored : List Str) (ops : List Op) (h : History)
    (hr : run (loadCommands (init size) stored) ops = .ok h) : (listing h).length ≤ size := by
  obtain ⟨hw, hm⟩ := run_wf (wf_load size stored) hr
  have hm' := (load_spec stored (init size) (by simp [init])).2.2.1
  have := hw.bound
  rw [hm, hm'] at this
  simpa [listing, length_number, init] using this

/-- **C21** … and, for a size of at least 1, none of these operations is undefined. -/
theorem C21_history_safe (size : Nat) (hs : 1 ≤ size) (stored : List Str) (ops : List Op) :
    ∃ h, run (loadCommands (init size) stored) ops = .ok h := by
  have hm' := (load_spec stored (init size) (by simp [init])).2.2.1
  exact run_total (wf_load size stored) (by rw [hm']; exact hs)

example : (run (loadCommands (init 3) [bs!"x"]) sampleOps).map listing =
    .ok [(3, bs!"c"), (4, bs!"e")] := by rfl

/-- The lines that Up and Down move through: the line being typed, then the entries, newest first; as many as the history can hold. -/
def browseView (h : History) (typed : Str) : List Str := (typed :: h.buffer).take h.maxSize

/-- **C22** (partial) Pressing Up k times and then Down j times shows the entry number min(k, last) - j of the typed line followed by the
    entries, newest first. In a full history the oldest entry is not among them: the first Up drops it
    (`C22_refuted_full_history`), so the full statement "k times Up shows the k-th most recent entry" holds for
    k below the configured size. -/
theorem C22_up_down_partial (h : History) (hw : WF h) (hm : 1 ≤ h.maxSize) (hmode : h.mode = .inserting) (typed : Str)
    (k : Nat) (hk : 1 ≤ k) :
    let view := browseView h typed
    ∃ s h1, ups k typed h = .ok (s, h1) ∧ view[min k (view.length - 1)]? = some s ∧
      ∀ j, j ≤ min k (view.length - 1) →
        ∃ s' h2, downs j s h1 = .ok (s', h2) ∧ view[min k (view.length - 1) - j]? = some s' := by
  have hv : (insert h typed).buffer = browseView h typed := insert_buffer h hw.bound typed
  obtain ⟨k, rfl⟩ : ∃ n, k = n + 1 := ⟨k - 1, by omega⟩
  obtain ⟨s, h1, h2⟩ := ups_spec hw.bound hm hmode typed k
  rw [hv] at h1 h2
  refine ⟨s, _, h1, h2, fun j hj => ?_⟩
  have hlt := (List.getElem?_eq_some_iff.1 h2).1
  have := downs_spec { insert h typed with mode := .browsing } (min (k + 1) ((browseView h typed).length - 1))
    (by simp only [hv]; exact hlt) s (by simp only [hv]; exact h2) j hj
  obtain ⟨s', h3, h4⟩ := this
  simp only [hv] at h4
  exact ⟨s', _, h3, h4⟩

/-- **C22** (partial) In particular Up k times shows the k-th most recent entry, for every existing entry if the history is not full, and for
    all but the oldest if it is; and k times Down then gives the typed line back. -/
theorem C22_kth_entry_partial (h : History) (hw : WF h) (hmode : h.mode = .inserting) (typed : Str)
    (k : Nat) (hk : 1 ≤ k) (c : Str) (hc : h.buffer[k - 1]? = some c) (hfull : k < h.maxSize) :
    ∃ h1, ups k typed h = .ok (c, h1) ∧ ∃ h2, downs k c h1 = .ok (typed, h2) := by
  obtain ⟨s, h1, h2, h3, h4⟩ := C22_up_down_partial h hw (by omega) hmode typed k hk
  have hlen := (List.getElem?_eq_some_iff.1 hc).1
  have hvl : (browseView h typed).length = min h.maxSize (h.buffer.length + 1) := by simp [browseView]
  have hmin : min k ((browseView h typed).length - 1) = k := by omega
  rw [hmin] at h3 h4
  have hcs : (browseView h typed)[k]? = some c := by
    simp only [browseView]
    rw [List.getElem?_take_of_lt hfull]
    obtain ⟨k, rfl⟩ : ∃ n, k = n + 1 := ⟨k - 1, by omega⟩
    simpa using hc
  rw [hcs] at h3
  injection h3 with h3
  subst h3
  obtain ⟨s', h5, h6, h7⟩ := h4 k (Nat.le_refl _)
  have : (browseView h typed)[k - k]? = some typed := by
    simp only [Nat.sub_self, browseView]
    rw [List.getElem?_take_of_lt (by omega)]
    rfl
  rw [this] at h7
  injection h7 with h7
  subst h7
  exact ⟨h1, h2, h5, h6⟩

/-- **C22** After a command has been entered, however it was recalled or typed, browsing starts afresh: Down shows nothing, and Up shows the command. -/
theorem C22_after_command (h h1 : History) (hw : WF h) (line typed : Str) (hn : newCommand h line = .ok h1) :
    (∀ j, downs j [] h1 = .ok ([], h1)) ∧ (2 ≤ h.maxSize → ∃ h2, ups 1 typed h1 = .ok (line, h2)) := by
  obtain ⟨_, a, b1, b2, b3, b4, b5⟩ := newCommand_ok hw line
  rw [a] at hn; cases hn
  have hc : h1.current = 0 := b1.ins b3
  refine ⟨fun j => ?_, fun hm => ?_⟩
  · induction j with
    | zero => rfl
    | succ j ih => simp only [downs, bind, Except.bind, ih, next, hc, or_true, if_true]
  · have h0 : h1.buffer[0]? = some line := by
      rw [← List.head?_eq_getElem?]
      unfold newCommand at a
      cases hmd : h.mode with
      | browsing =>
        simp only [hmd] at a
        split at a
        · cases a
        · split at a
          · cases a; assumption
          · cases a; rfl
      | inserting =>
        simp only [hmd] at a
        split at a
        · cases a
          simp only
          rw [insert_buffer ⟨h.maxSize, h.buffer, 0, h.commands + 1, .inserting, h.idOfOldest⟩ hw.bound]
          obtain ⟨n, hn⟩ : ∃ n, h.maxSize = n + 1 := ⟨h.maxSize - 1, by omega⟩
          simp [hn]
        · cases a
          rename_i hx
          simpa using hx
    obtain ⟨h2, h3, _⟩ := C22_kth_entry_partial h1 b1 b3 typed 1 (by omega) line h0 (by omega)
    exact ⟨h2, h3⟩

example : (newCommand ⟨5, [bs!"x", bs!"b", bs!"a"], 2, 2, .browsing, 0⟩ bs!"c").map (fun h => (ups 2 bs!"t" h).toOption.map (·.1)) = .ok (some bs!"b") := by rfl

/-- **C22 is false of the code** for every full history: the first Up puts the typed line in the place of the oldest entry, so that, however often Up is pressed, the oldest entry is not shown, and the listing does not contain it any more. -/
theorem C22_oldest_refuted (h : History) (hw : WF h) (hm : 1 ≤ h.maxSize) (hmode : h.mode = .inserting) (typed : Str) (k : Nat) (hk : 1 ≤ k)
    (hfull : (listing h).length = h.maxSize) :
    ∃ s h1, ups k typed h = .ok (s, h1) ∧ listing h1 = (listing h).tail ++ [(h.idOfOldest + h.maxSize, typed)] ∧ s ∈ typed :: (listing h).tail.map (·.2) := by
  have hlen : h.buffer.length = h.maxSize := by rw [← hfull]; simp [listing, length_number]
  obtain ⟨k, rfl⟩ : ∃ n, k = n + 1 := ⟨k - 1, by omega⟩
  obtain ⟨s, h1, h2⟩ := ups_spec hw.bound hm hmode typed k
  have hi : (insert h typed).buffer = (typed :: h.buffer).dropLast ∧ (insert h typed).idOfOldest = h.idOfOldest + 1 := by
    unfold History.insert
    simp only [List.length_cons, hlen, gt_iff_lt, Nat.lt_succ_self, if_true, and_self]
  have htl : (listing h).tail = number (h.idOfOldest + 1) h.buffer.dropLast.reverse := by
    unfold listing
    rw [← List.tail_reverse]
    cases h.buffer.reverse <;> rfl
  have hne : h.buffer ≠ [] := by intro e; rw [e] at hlen; simp at hlen; omega
  have hdl : (typed :: h.buffer).dropLast = typed :: h.buffer.dropLast := List.dropLast_cons_of_ne_nil hne
  refine ⟨s, _, h1, ?_, ?_⟩
  · rw [htl]
    simp only [listing, hi.1, hi.2, hdl, List.reverse_cons]
    rw [number_append]
    simp only [List.length_reverse, List.length_dropLast, hlen, number]
    rw [show h.idOfOldest + 1 + (h.maxSize - 1) = h.idOfOldest + h.maxSize by omega]
  · rw [hi.1, hdl] at h2
    have hmem := List.mem_of_getElem? h2
    rw [htl, map_snd_number]
    simpa using hmem

example : ∃ s h1, ups 9 bs!"x" ⟨2, [bs!"c", bs!"b"], 0, 3, .inserting, 4⟩ = .ok (s, h1) ∧ listing h1 = [(5, bs!"c"), (6, bs!"x")] := by
  obtain ⟨s, h1, a, b, _⟩ := C22_oldest_refuted ⟨2, [bs!"c", bs!"b"], 0, 3, .inserting, 4⟩ ⟨by decide, by decide, by decide⟩ (by decide) rfl bs!"x" 9 (by decide) rfl
  exact ⟨s, h1, a, b⟩

/-- **C22 is false of the code** for a full history: the oldest of three entries cannot be recalled, because the first Up dropped it. -/
theorem C22_refuted_full_history : ∃ (h : History) (h' : History), WF h ∧ h.mode = .inserting ∧
    listing h = [(0, bs!"a"), (1, bs!"b"), (2, bs!"c")] ∧
    ups 3 bs!"" h = .ok (bs!"b", h') ∧ listing h' = [(1, bs!"b"), (2, bs!"c"), (3, bs!"")] :=
  ⟨⟨3, [bs!"c", bs!"b", bs!"a"], 0, 3, .inserting, 0⟩, _, ⟨by decide, by decide, by decide⟩, rfl, by rfl, by rfl, by rfl⟩

example : (ups 2 bs!"typed" ⟨5, [bs!"c", bs!"b", bs!"a"], 0, 3, .inserting, 0⟩).map (·.1) = .ok bs!"b" := by rfl

/-- **C23** The history command prints exactly the listing. -/
theorem C23_listing_shown (h : History) : «show» h = some (render (listing h)) := show_eq h

/-- **C23** Identifiers increase from the oldest to the newest entry (so they are distinct). -/
theorem C23_ids_increasing (h : History) : (listing h).Pairwise (fun a b => a.1 < b.1) := number_increasing _ _

/-- **C23** Looking an identifier up gives exactly the command listed under it, and an exception for every other identifier. (In a history that is
    empty and never dropped an entry the lookup is undefined for identifier 0: property C26.) -/
theorem C23_lookup (h : History) (hne : listing h ≠ [] ∨ h.idOfOldest ≠ 0) (id : Nat) :
    (∀ c, «at» h id = .ok (some c) ↔ (id, c) ∈ listing h) ∧
    («at» h id = .ok none ↔ ∀ c, (id, c) ∉ listing h) := by
  have hne' : h.idOfOldest + h.buffer.length ≠ 0 := by
    rcases hne with h1 | h1
    · intro h2
      apply h1
      have : h.buffer = [] := List.length_eq_zero_iff.1 (by omega)
      simp [listing, this, number]
    · omega
  exact ⟨at_listing h hne' id, at_none h hne' id⟩

theorem mem_lastN {α} {n : Nat} {l : List α} {x : α} (h : x ∈ lastN n l) : x ∈ l := List.mem_of_mem_drop h

/-- The entries of the history, without the line being edited while the history is browsed. -/
def settled (h : History) : List (Nat × Str) := match h.mode with
  | .browsing => (listing h).dropLast
  | .inserting => listing h

/-- **C23** The listing after a new command: nothing is added if the command repeats the latest entry; otherwise it comes last, under the next identifier, and the oldest entry disappears if the history is full. -/
theorem C23_new_command (h h' : History) (hw : WF h) (item : Str) (hn : newCommand h item = .ok h') :
    listing h' = if (settled h).getLast?.map (·.2) = some item then settled h else lastN h.maxSize (settled h ++ [(h.idOfOldest + (settled h).length, item)]) := by
  have hlast : ∀ (f : Nat) (l : List Str), (number f l.reverse).getLast?.map (·.2) = l.head? := by
    intro f l
    rw [← List.getLast?_map, map_snd_number, List.getLast?_reverse]
  unfold newCommand at hn
  cases hmd : h.mode with
  | browsing =>
    simp only [hmd] at hn
    match hb : h.buffer with
    | [] => simp [hb] at hn
    | x :: rest =>
      simp only [hb] at hn
      have hs : settled h = number h.idOfOldest rest.reverse := by
        simp [settled, hmd, listing, hb, number_append, number]
      rw [hs, hlast, length_number]
      split at hn
      · rename_i he
        injection hn with hn; subst hn
        rw [if_pos he]; rfl
      · rename_i he
        injection hn with hn; subst hn
        have hl : lastN h.maxSize (number h.idOfOldest rest.reverse ++ [(h.idOfOldest + rest.reverse.length, item)]) =
            number h.idOfOldest rest.reverse ++ [(h.idOfOldest + rest.reverse.length, item)] := by
          have := hw.bound
          rw [hb] at this
          simp only [List.length_cons] at this
          unfold lastN
          rw [show (number h.idOfOldest rest.reverse ++ [(h.idOfOldest + rest.reverse.length, item)]).length - h.maxSize = 0 by simp [length_number]; omega]
          rfl
        rw [if_neg he, hl]
        simp [listing, number_append, number]
  | inserting =>
    simp only [hmd] at hn
    have hs : settled h = number h.idOfOldest h.buffer.reverse := by simp [settled, hmd, listing]
    rw [hs, hlast, length_number]
    split at hn
    · rename_i he
      injection hn with hn; subst hn
      have hl := insert_listing { h with commands := h.commands + 1, current := 0, mode := .inserting } hw.bound item
      rw [number_append] at hl
      rw [if_neg he]
      exact hl
    · rename_i he
      injection hn with hn; subst hn
      rw [if_pos (Classical.not_not.1 he)]; rfl

example : (newCommand ⟨3, [bs!"c", bs!"b", bs!"a"], 0, 3, .inserting, 0⟩ bs!"d").map listing = .ok [(1, bs!"b"), (2, bs!"c"), (3, bs!"d")] := by rfl

/-- **C23** A new command never changes the identifier of an entry: what is listed afterwards under an identifier was listed
    under it before, except for the entry the command itself went into, which is the last one. -/
theorem C23_ids_stable (h h' : History) (hw : WF h) (item : Str) (hn : newCommand h item = .ok h')
    (id : Nat) (c : Str) (hc : (id, c) ∈ listing h') :
    (id, c) ∈ listing h ∨ (c = item ∧ ∀ p ∈ listing h', p.1 ≤ id) := by
  unfold newCommand at hn
  cases hmd : h.mode with
  | browsing =>
    simp only [hmd] at hn
    match hb : h.buffer with
    | [] => simp [hb] at hn
    | x :: rest =>
      simp only [hb] at hn
      have old : ∀ i, rest.reverse[i]? = some c → (h.idOfOldest + i, c) ∈ listing h := by
        intro i hi
        rw [listing, mem_number]
        refine ⟨i, ?_, rfl⟩
        rw [hb, List.reverse_cons, List.getElem?_append_left]
        · exact hi
        · exact (List.getElem?_eq_some_iff.1 hi).1
      split at hn
      · injection hn with hn; subst hn
        simp only [listing] at hc
        obtain ⟨i, hi, rfl⟩ := mem_number.1 hc
        exact .inl (old i hi)
      · injection hn with hn; subst hn
        simp only [listing, List.reverse_cons, number_append, List.mem_append] at hc
        rcases hc with hc | hc
        · obtain ⟨i, hi, rfl⟩ := mem_number.1 hc
          exact .inl (old i hi)
        · right
          simp only [number, List.mem_singleton, Prod.mk.injEq] at hc
          obtain ⟨rfl, rfl⟩ := hc
          refine ⟨rfl, ?_⟩
          rintro ⟨id', c'⟩ hp
          simp only [listing, List.reverse_cons] at hp
          obtain ⟨i, hi, rfl⟩ := mem_number.1 hp
          have := (List.getElem?_eq_some_iff.1 hi).1
          simp at this ⊢
          omega
  | inserting =>
    simp only [hmd] at hn
    split at hn
    · injection hn with hn; subst hn
      have hl := insert_listing { h with commands := h.commands + 1, current := 0, mode := .inserting } hw.bound item
      simp only at hl
      have hc' : (id, c) ∈ number h.idOfOldest (h.buffer.reverse ++ [item]) := mem_lastN (hl ▸ hc)
      rw [number_append, List.mem_append] at hc'
      rcases hc' with hc' | hc'
      · exact .inl hc'
      · right
        simp only [number, List.mem_singleton, Prod.mk.injEq] at hc'
        obtain ⟨rfl, rfl⟩ := hc'
        refine ⟨rfl, ?_⟩
        rintro ⟨id', c'⟩ hp
        have hp' : (id', c') ∈ number h.idOfOldest (h.buffer.reverse ++ [c]) := mem_lastN (hl ▸ hp)
        obtain ⟨i, hi, rfl⟩ := mem_number.1 hp'
        have := (List.getElem?_eq_some_iff.1 hi).1
        simp at this ⊢
        omega
    · injection hn with hn; subst hn
      exact .inl hc

example : (run (init 2) [.new bs!"a", .new bs!"b", .new bs!"c"]).map (fun h => (listing h, «at» h 2, «at» h 0)) =
    .ok ([(1, bs!"b"), (2, bs!"c")], .ok (some bs!"c"), .ok none) := by rfl

/-- The entries of a history, newest first, without the line being edited (which is stored in front of them while browsing). -/
def entriesNewestFirst (h : History) : List Str :=
  match h.mode with
  | .inserting => h.buffer
  | .browsing => h.buffer.tail

/-- **C24** Entering a command equal to the last one does not create a second entry: the entries stay as they are. -/
theorem C24_repetition_not_stored (h h' : History) (item : Str)
    (hlast : (entriesNewestFirst h).head? = some item) (hn : newCommand h item = .ok h') :
    h'.buffer = entriesNewestFirst h ∧ h'.mode = .inserting := by
  unfold newCommand at hn
  unfold entriesNewestFirst at *
  cases hmd : h.mode with
  | browsing =>
    simp only [hmd] at hn hlast ⊢
    match hb : h.buffer with
    | [] => simp [hb] at hn
    | x :: rest =>
      simp only [hb, List.tail_cons] at hn hlast ⊢
      rw [if_pos hlast] at hn
      injection hn with hn; subst hn; exact ⟨rfl, rfl⟩
  | inserting =>
    simp only [hmd] at hn hlast ⊢
    rw [if_neg (by simp [hlast])] at hn
    injection hn with hn; subst hn; exact ⟨rfl, rfl⟩

/-- An operation that does not edit a recalled line: Up is pressed on the unchanged recalled line, or on the line being typed. -/
def Unedited (h : History) : Op → Prop
  | .up line => h.mode = .browsing → h.current = 0 ∨ h.buffer[h.current]? = some line
  | _ => True

/-- Runs in which recalled lines are never edited. -/
inductive UneditedRun : History → List Op → History → Prop
  | nil (h) : UneditedRun h [] h
  | cons {h op h1 ops h2} : Unedited h op → step h op = .ok h1 → UneditedRun h1 ops h2 → UneditedRun h (op :: ops) h2

theorem noRepeat_take (n : Nat) (l : List Str) (h : NoRepeat l) : NoRepeat (l.take n) := by
  induction l generalizing n with
  | nil => simp [NoRepeat]
  | cons a l ih =>
    cases n with
    | zero => simp [NoRepeat]
    | succ n =>
      cases l with
      | nil => simp [NoRepeat]
      | cons b l =>
        cases n with
        | zero => simp [NoRepeat]
        | succ n => exact ⟨h.1, by simpa using ih (n + 1) h.2⟩

theorem noRepeat_tail (l : List Str) (h : NoRepeat l) : NoRepeat l.tail := by
  match l, h with
  | [], _ => exact trivial
  | [_], _ => exact trivial
  | _ :: _ :: _, h => exact h.2

theorem noRepeat_cons (a : Str) (l : List Str) (h : NoRepeat l) (hne : l.head? ≠ some a) : NoRepeat (a :: l) := by
  match l, h, hne with
  | [], _, _ => exact trivial
  | b :: l, h, hne => exact ⟨by simpa [eq_comm] using hne, h⟩

theorem new_noRepeat {h h' : History} (hw : WF h) (hn : NoRepeat (entriesNewestFirst h)) (item : Str)
    (hs : newCommand h item = .ok h') : NoRepeat h'.buffer ∧ h'.mode = .inserting := by
  by_cases hl : (entriesNewestFirst h).head? = some item
  · obtain ⟨h1, h2⟩ := C24_repetition_not_stored h h' item hl hs
    exact ⟨h1 ▸ hn, h2⟩
  · unfold newCommand at hs
    unfold entriesNewestFirst at *
    cases hmd : h.mode with
    | browsing =>
      simp only [hmd] at hs hl hn
      match hb : h.buffer with
      | [] => simp [hb] at hs
      | x :: rest =>
        simp only [hb, List.tail_cons] at hs hl hn
        rw [if_neg hl] at hs
        injection hs with hs; subst hs
        exact ⟨noRepeat_cons _ _ hn hl, rfl⟩
    | inserting =>
      simp only [hmd] at hs hl hn
      rw [if_pos hl] at hs
      injection hs with hs; subst hs
      refine ⟨?_, rfl⟩
      simp only
      rw [insert_buffer]
      · exact noRepeat_take _ _ (noRepeat_cons _ _ hn hl)
      · exact hw.bound

/-- **C24** In a session that started with an empty history and in which recalled lines are not edited, no two adjacent entries are equal,
    whatever is entered, browsed or re-executed. (While browsing, the entries are those without the line being edited.) -/
theorem C24_no_adjacent_repetition (size : Nat) (ops : List Op) (h : History)
    (hr : UneditedRun (init size) ops h) : NoRepeat (entriesNewestFirst h) := by
  have main : ∀ {h0 ops h}, UneditedRun h0 ops h → WF h0 → NoRepeat (entriesNewestFirst h0) →
      NoRepeat (entriesNewestFirst h) := by
    intro h0 ops h hr
    induction hr with
    | nil h => intro _ hn; exact hn
    | @cons h op h1 ops h2 hu hs _ ih =>
      intro hw hn
      have hw1 := (step_wf hw hs).1
      refine ih hw1 ?_
      cases op with
      | new item =>
        obtain ⟨h3, h4⟩ := new_noRepeat hw hn item hs
        simpa [entriesNewestFirst, h4] using h3
      | bang item =>
        simp only [step, bind, Except.bind] at hs
        cases hnc : newCommand h item with
        | error e => simp [hnc] at hs
        | ok h3 =>
          simp only [hnc] at hs
          obtain ⟨h4, h5⟩ := new_noRepeat hw hn item hnc
          unfold forgetLatest at hs
          split at hs
          · cases hs
          · rename_i x rest hb
            injection hs with hs; subst hs
            rw [hb] at h4
            simpa [entriesNewestFirst, h5] using noRepeat_tail _ h4
      | down =>
        obtain ⟨s, h3, h4, _, _, h5, h6, _⟩ := next_ok hw
        simp only [step, h4, Except.map, Except.ok.injEq] at hs
        subst hs
        simpa [entriesNewestFirst, h5, h6] using hn
      | up line =>
        simp only [step] at hs
        cases hmd : h.mode with
        | inserting =>
          by_cases hm : h.maxSize = 0
          · obtain ⟨e, he⟩ := previous_zero hw hm line
            rw [he] at hs; cases hs
          · obtain ⟨s, h3, h4⟩ := previous_inserting hw.bound (by omega) hmd line
            rw [h3] at hs
            simp only [Except.map, Except.ok.injEq] at hs
            subst hs
            simp only [entriesNewestFirst]
            rw [insert_buffer h hw.bound]
            simp only [entriesNewestFirst, hmd] at hn
            cases hM : h.maxSize with
            | zero => omega
            | succ n => simpa using noRepeat_take n _ hn
        | browsing =>
          obtain ⟨s, h3, h4⟩ := previous_browsing (hw.browse hmd) hmd line
          rw [h3] at hs
          simp only [Except.map, Except.ok.injEq] at hs
          subst hs
          simp only [entriesNewestFirst, hmd] at hn ⊢
          rcases hu hmd with h5 | h5
          · rw [h5]
            cases hb : h.buffer with
            | nil => simp [NoRepeat]
            | cons x rest => simpa [hb] using hn
          · have := (List.getElem?_eq_some_iff.1 h5).2
            rw [← this, List.set_getElem_self]
            exact hn
  exact main hr (wf_init size) (by simp [entriesNewestFirst, init, NoRepeat])

example : UneditedRun (init 5)
    [.new bs!"a", .new bs!"b", .new bs!"b", .up bs!"b", .up bs!"b", .new bs!"a"]
    ⟨5, [bs!"a", bs!"b", bs!"a"], 0, 4, .inserting, 0⟩ := by
  refine .cons trivial rfl (.cons trivial rfl (.cons trivial rfl (.cons ?_ rfl (.cons ?_ rfl (.cons trivial rfl (.nil _))))))
  · intro h; cases h
  · intro _; right; rfl

/-- Editing a recalled line can produce adjacent repetitions (so the hypothesis of C24 is needed). -/
example : (run (init 5) [.new bs!"a", .new bs!"b", .up bs!"", .up bs!"a", .new bs!"c"]).map (·.buffer) =
    .ok [bs!"c", bs!"a", bs!"a"] := by rfl

/-- **C28** Browsing with Up/Down without changing the recalled lines, then entering a command, leaves exactly the same state (entries,
    identifiers, number of commands) as entering it directly — if the history is not full; even if it is full, provided the command does
    not repeat the newest entry. -/
theorem C28_browsing_transparent (h : History) (hw : WF h) (hmode : h.mode = .inserting) (hm : 1 ≤ h.maxSize)
    (keys : List Bool) (typed : Str) (shown : Str) (h' : History) (hb : browse keys typed h = .ok (shown, h'))
    (item : Str) (hnf : (listing h).length < h.maxSize ∨ h.buffer.head? ≠ some item) :
    newCommand h' item = newCommand h item := by
  refine browse_transparent hw hmode hm ?_ hb
  simpa [listing, length_number] using hnf

/-- **C28** Browsing is always possible (no undefined behaviour) in such a history. -/
theorem C28_browsing_total (h : History) (hw : WF h) (hmode : h.mode = .inserting) (hm : 1 ≤ h.maxSize)
    (keys : List Bool) (typed : Str) : ∃ shown h', browse keys typed h = .ok (shown, h') := by
  obtain ⟨l, h', h1, _⟩ := browse_inserting (ks := keys) (line := typed) hw hmode hm
  exact ⟨l, h', h1⟩

/-- The restriction in C28 is needed: in a full history, browsing and entering the newest command again loses the oldest entry. -/
example : (browse [true] bs!"" ⟨2, [bs!"b", bs!"a"], 0, 2, .inserting, 0⟩).bind (fun (_, h) => (newCommand h bs!"b").map (·.buffer))
      = .ok [bs!"b"] ∧
    (newCommand ⟨2, [bs!"b", bs!"a"], 0, 2, .inserting, 0⟩ bs!"b").map (·.buffer) = .ok [bs!"b", bs!"a"] := by
  constructor <;> rfl

example : (browse [true, true, false, true, false, false, false] bs!"x" ⟨3, [bs!"b", bs!"a"], 0, 2, .inserting, 0⟩).map (·.1)
    = .ok [] := by rfl

/-- **C33** A new session's listing is the last `size` commands of the storage in order, numbered by their position in it. -/
theorem C33_new_session_listing (size : Nat) (stored : List Str) :
    listing (loadCommands (init size) stored) = number (stored.length - size) (lastN size stored) := by
  have := (load_spec stored (init size) (by simp [init])).1
  rw [this]
  simp only [init, List.reverse_nil, List.nil_append, lastN, length_number, drop_number]
  simp

/-- **C33** … and it starts in the state in which Up recalls the newest entry first (hypotheses of C22). -/
theorem C33_new_session_ready (size : Nat) (stored : List Str) :
    WF (loadCommands (init size) stored) ∧ (loadCommands (init size) stored).mode = .inserting ∧
    (loadCommands (init size) stored).maxSize = size ∧
    (loadCommands (init size) stored).buffer = (lastN size stored).reverse := by
  obtain ⟨h1, h2, h3, h4, h5, h6⟩ := load_spec stored (init size) (by simp [init])
  refine ⟨wf_load size stored, h4, h3, ?_⟩
  have := C33_new_session_listing size stored
  have := congrArg (List.map (·.2)) this
  rw [map_snd_number, listing, map_snd_number] at this
  rw [← this, List.reverse_reverse]

example : listing (loadCommands (init 2) [bs!"a", bs!"b", bs!"c"]) = [(1, bs!"b"), (2, bs!"c")] := by rfl

/-- **C29** (partial) What a session hands to the storage on exit is always a final segment of its entries, oldest first (without the line
    being edited), as long as the number of commands it counted. -/
theorem C29_saved_is_suffix_partial (h : History) (hw : WF h) :
    getCommands h = .ok (lastN h.commands (entriesNewestFirst h).reverse) := by
  unfold getCommands entriesNewestFirst
  cases hmd : h.mode with
  | inserting =>
    simp only
    rw [lastN_reverse]
    congr 2
    rw [List.take_eq_take_iff]; omega
  | browsing =>
    have hc := hw.browse hmd
    have hne : h.buffer ≠ [] := by intro e; rw [e] at hc; simp at hc
    simp only [hne, if_false]
    rw [lastN_reverse, List.drop_one]
    congr 2
    rw [List.take_eq_take_iff]
    simp

/-- Enter commands one after the other, each after browsing without editing. -/
def enterAll : History → List (List Bool × Str × Str) → Except Fault History
  | h, [] => .ok h
  | h, (keys, typed, item) :: rest => do
    let (_, h) ← browse keys typed h
    let h ← newCommand h item
    enterAll h rest

/-- No command repeats the newest entry at the time it is entered. -/
def NoRepetition : Option Str → List Str → Prop
  | _, [] => True
  | last, c :: cs => last ≠ some c ∧ NoRepetition (some c) cs

theorem enterAll_spec (cs : List (List Bool × Str × Str)) : ∀ (h : History), WF h → h.mode = .inserting → 1 ≤ h.maxSize →
    NoRepetition h.buffer.head? (cs.map (·.2.2)) →
    ∃ h', enterAll h cs = .ok h' ∧ WF h' ∧ h'.mode = .inserting ∧ h'.maxSize = h.maxSize ∧
      h'.commands = h.commands + cs.length ∧
      h'.buffer.reverse = lastN h.maxSize (h.buffer.reverse ++ cs.map (·.2.2)) := by
  induction cs with
  | nil =>
    intro h hw hmd _ _
    refine ⟨h, rfl, hw, hmd, rfl, rfl, ?_⟩
    simp only [List.map_nil, List.append_nil]
    rw [lastN_of_le]; simpa using hw.bound
  | cons x cs ih =>
    obtain ⟨keys, typed, item⟩ := x
    intro h hw hmd hm hnr
    simp only [List.map_cons, NoRepetition] at hnr
    obtain ⟨l, h1, hb, _⟩ := browse_inserting (ks := keys) (line := typed) hw hmd hm
    have ht := browse_transparent hw hmd hm (item := item) (.inr hnr.1) hb
    obtain ⟨h2, hn, hw2, hm2, hmd2, hc2, _⟩ := newCommand_ok hw item
    have hbuf : h2.buffer = (item :: h.buffer).take h.maxSize := by
      have := hn
      unfold newCommand at this
      simp only [hmd] at this
      rw [if_pos hnr.1] at this
      injection this with this
      subst this
      exact insert_buffer { h with commands := h.commands + 1, current := 0, mode := .inserting } hw.bound item
    have hhead : h2.buffer.head? = some item := by
      rw [hbuf]
      cases hM : h.maxSize with
      | zero => omega
      | succ n => simp
    obtain ⟨h3, h4, h5, h6, h7, h8, h9⟩ := ih h2 hw2 hmd2 (by omega) (by rw [hhead]; exact hnr.2)
    refine ⟨h3, ?_, h5, h6, h7.trans hm2, by simp [h8, hc2]; omega, ?_⟩
    · simp only [enterAll, hb, bind, Except.bind, ht, hn, h4]
    · rw [h9, hbuf, ← lastN_reverse, hm2, lastN_append_lastN]
      simp

/-- **C29** (partial) A session that loads any storage, and in which commands are entered — possibly after browsing the history without editing —,
    none of them repeating the entry before it, saves exactly the commands entered that are still in its history, oldest
    first. Missing: commands that repeat the previous entry, `! n` lines (both are counted without adding an
    entry: `C29_refuted_repetition`) and edited history lines. -/
theorem C29_exit_saves_entered_partial (size : Nat) (hs : 1 ≤ size) (stored : List Str)
    (cs : List (List Bool × Str × Str)) (hnr : NoRepetition stored.getLast? (cs.map (·.2.2))) :
    ∃ h, enterAll (loadCommands (init size) stored) cs = .ok h ∧
      getCommands h = .ok (lastN size (cs.map (·.2.2))) := by
  obtain ⟨hw, hmd, hm, hbuf⟩ := C33_new_session_ready size stored
  have hhead : (loadCommands (init size) stored).buffer.head? = stored.getLast? := by
    rw [hbuf, List.head?_reverse]
    unfold lastN
    cases hst : stored with
    | nil => simp
    | cons x xs =>
      rw [List.getLast?_drop]
      simp
      omega
  obtain ⟨h, h1, h2, h3, h4, h5, h6⟩ := enterAll_spec cs _ hw hmd (by omega) (by rw [hhead]; exact hnr)
  refine ⟨h, h1, ?_⟩
  rw [C29_saved_is_suffix_partial h h2]
  have hc0 : (loadCommands (init size) stored).commands = 0 :=
    (load_spec stored (init size) (by simp [init])).2.2.2.2.2
  simp only [entriesNewestFirst, h3, h6, hm, h5, hc0, Nat.zero_add]
  rw [lastN_lastN]
  by_cases hle : cs.length ≤ size
  · rw [Nat.min_eq_left hle, lastN_append_right _ _ _ (by simp), lastN_of_le (by simp), lastN_of_le (by simpa using hle)]
  · rw [Nat.min_eq_right (by omega), lastN_append_right _ _ _ (by simp; omega)]

/-- The lines without those that repeat the line before them (`last`: what precedes the first one). -/
def kept : Option Str → List Str → List Str
  | _, [] => []
  | last, c :: cs => if last = some c then kept last cs else c :: kept (some c) cs

/-- A line that repeats the one before it is entered without browsing. -/
def DirectRepeats : Option Str → List (List Bool × Str × Str) → Prop
  | _, [] => True
  | last, c :: cs => (last = some c.2.2 → c.1 = []) ∧ DirectRepeats (some c.2.2) cs

theorem enterAll_kept (cs : List (List Bool × Str × Str)) : ∀ (h : History), WF h → h.mode = .inserting → 1 ≤ h.maxSize → DirectRepeats h.buffer.head? cs →
    ∃ h', enterAll h cs = .ok h' ∧ WF h' ∧ h'.mode = .inserting ∧ h'.maxSize = h.maxSize ∧ h'.commands = h.commands + cs.length ∧
      h'.buffer.reverse = lastN h.maxSize (h.buffer.reverse ++ kept h.buffer.head? (cs.map (·.2.2))) := by
  induction cs with
  | nil =>
    intro h hw hmd _ _
    refine ⟨h, rfl, hw, hmd, rfl, rfl, ?_⟩
    simp only [List.map_nil, kept, List.append_nil]
    rw [lastN_of_le]; simpa using hw.bound
  | cons x cs ih =>
    obtain ⟨keys, typed, item⟩ := x
    intro h hw hmd hm hd
    obtain ⟨hd1, hd2⟩ := hd
    simp only at hd1 hd2
    by_cases hrep : h.buffer.head? = some item
    · have hk := hd1 hrep
      subst hk
      have hn : newCommand h item = .ok { h with commands := h.commands + 1, current := 0, mode := .inserting } := by
        unfold newCommand
        simp only [hmd]
        rw [if_neg (by rw [hrep]; simp)]
      obtain ⟨h2, hn2, hw2, hm2, hmd2, hc2, _⟩ := newCommand_ok hw item
      rw [hn] at hn2
      injection hn2 with hn2
      subst hn2
      obtain ⟨h3, h4, h5, h6, h7, h8, h9⟩ := ih _ hw2 hmd2 hm (by rw [← hrep] at hd2; exact hd2)
      refine ⟨h3, ?_, h5, h6, h7, by rw [h8]; simp; omega, ?_⟩
      · simp only [enterAll, browse, bind, Except.bind, hn, h4]
      · rw [h9]
        simp only [List.map_cons, kept, hrep, if_true]
    · obtain ⟨l, h1, hb, _⟩ := browse_inserting (ks := keys) (line := typed) hw hmd hm
      have ht := browse_transparent hw hmd hm (item := item) (.inr hrep) hb
      obtain ⟨h2, hn, hw2, hm2, hmd2, hc2, _⟩ := newCommand_ok hw item
      have hbuf : h2.buffer = (item :: h.buffer).take h.maxSize := by
        have := hn
        unfold newCommand at this
        simp only [hmd] at this
        rw [if_pos hrep] at this
        injection this with this
        subst this
        exact insert_buffer { h with commands := h.commands + 1, current := 0, mode := .inserting } hw.bound item
      have hhead : h2.buffer.head? = some item := by
        rw [hbuf]
        cases hM : h.maxSize with
        | zero => omega
        | succ n => simp
      obtain ⟨h3, h4, h5, h6, h7, h8, h9⟩ := ih h2 hw2 hmd2 (by omega) (by rw [hhead]; exact hd2)
      refine ⟨h3, ?_, h5, h6, h7.trans hm2, by simp [h8, hc2]; omega, ?_⟩
      · simp only [enterAll, hb, bind, Except.bind, ht, hn, h4]
      · rw [h9, hhead, hbuf, ← lastN_reverse, hm2, lastN_append_lastN]
        simp [kept, hrep]

theorem kept_length (last : Option Str) (cs : List Str) : (kept last cs).length ≤ cs.length := by
  induction cs generalizing last with
  | nil => simp [kept]
  | cons c cs ih =>
    simp only [kept]
    split
    · have := ih last; simp; omega
    · have := ih (some c); simp; omega

/-- **C29** (partial) With repetitions (not entered after browsing): what is saved is a final segment of the old commands followed by those entered, without repetitions; it is as long as the number
    of commands entered, so that for each repetition one of the old commands is saved again. Missing: `! n` lines and edited history lines. -/
theorem C29_repetitions_partial (size : Nat) (hs : 1 ≤ size) (stored : List Str) (cs : List (List Bool × Str × Str)) (hd : DirectRepeats stored.getLast? cs) :
    ∃ h, enterAll (loadCommands (init size) stored) cs = .ok h ∧
      getCommands h = .ok (lastN (min cs.length size) (stored ++ kept stored.getLast? (cs.map (·.2.2)))) := by
  obtain ⟨hw, hmd, hm, hbuf⟩ := C33_new_session_ready size stored
  have hhead : (loadCommands (init size) stored).buffer.head? = stored.getLast? := by
    rw [hbuf, List.head?_reverse]
    unfold lastN
    cases hst : stored with
    | nil => simp
    | cons x xs =>
      rw [List.getLast?_drop]
      simp
      omega
  obtain ⟨h, h1, h2, h3, h4, h5, h6⟩ := enterAll_kept cs _ hw hmd (by omega) (by rw [hhead]; exact hd)
  refine ⟨h, h1, ?_⟩
  rw [C29_saved_is_suffix_partial h h2]
  have hc0 : (loadCommands (init size) stored).commands = 0 :=
    (load_spec stored (init size) (by simp [init])).2.2.2.2.2
  simp only [entriesNewestFirst, h3, h6, hm, h5, hc0, Nat.zero_add, hhead]
  rw [hbuf, List.reverse_reverse, lastN_append_lastN, lastN_lastN]

/-- `c` entered twice and `d` once, after `a`, `b`: the old `b` is saved again. -/
example : DirectRepeats (some bs!"b") [([true], bs!"", bs!"c"), ([], bs!"", bs!"c"), ([], bs!"", bs!"d")] ∧
    lastN (min 3 10) ([bs!"a", bs!"b"] ++ kept (some bs!"b") [bs!"c", bs!"c", bs!"d"]) = [bs!"b", bs!"c", bs!"d"] := by
  refine ⟨?_, by decide⟩
  simp [DirectRepeats]

/-- **C29 is false of the code**: a session that loads `a`, `b` and in which `c` is entered twice hands `b`, `c` to the storage, so
    the old command `b` is stored a second time. -/
theorem C29_refuted_repetition : ∃ h, run (loadCommands (init 10) [bs!"a", bs!"b"]) [.new bs!"c", .new bs!"c"] = .ok h ∧
    getCommands h = .ok [bs!"b", bs!"c"] := ⟨_, rfl, rfl⟩

example : (enterAll (loadCommands (init 10) [bs!"a", bs!"b"]) [([], bs!"", bs!"c"), ([true, true], bs!"", bs!"a")]).bind getCommands =
    .ok [bs!"c", bs!"a"] := by rfl

end Verif.Props
