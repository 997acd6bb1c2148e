import Verif.Spec.WinKeys

set_option linter.unusedSimpArgs false

/-!
# Properties C82–C84: the keyboard on Windows
-/

namespace Verif.Props
open Spec WinKeyboard
open Terminal (Key)

/-! ### C82 -/

/-- The records that have arrived. -/
def winArrived : List WinKeyboard.Ev → List Rec
  | [] => []
  | .arrive r :: es => r :: winArrived es
  | _ :: es => winArrived es

/-- Neither a function key nor the character 224. -/
def WinPlain : Rec → Prop
  | .press 0 (some _) => False
  | .press 224 none => False
  | _ => True

/-- The key of a record. -/
def winKey : Rec → Option Key
  | .other => none
  | .press _ (some c) => some (decodeSymbol c)
  | .press c none => match decodeFirst c with
    | .post k => some k
    | _ => none

theorem winKey_other (rs : List Rec) : (Rec.other :: rs).filterMap winKey = rs.filterMap winKey := by
  rw [List.filterMap_cons]; rfl

/-- Records as they are met in practice. -/
def WinGood (r : Rec) : Prop := r = .other ∨ (∃ c, r = .press 224 (some c)) ∨ ∃ c k, r = .press c none ∧ decodeFirst c = .post k

theorem winTyped_good {ks : List Key} {rs : List Rec} (h : WinTyped ks rs) (hp : ∀ r ∈ rs, WinPlain r) : ks = rs.filterMap winKey ∧ ∀ r ∈ rs, WinGood r := by
  induction h with
  | nil => exact ⟨rfl, by simp⟩
  | other _ ih =>
    obtain ⟨h1, h2⟩ := ih (fun r h => hp r (by simp [h]))
    refine ⟨by rw [winKey_other]; exact h1, ?_⟩
    intro r hr
    rcases List.mem_cons.1 hr with rfl | hr
    · exact .inl rfl
    · exact h2 r hr
  | @key k r ks rs hs _ ih =>
    obtain ⟨h1, h2⟩ := ih (fun r h => hp r (by simp [h]))
    have hr : winKey r = some k ∧ WinGood r := by
      have hpr := hp r (by simp)
      cases hs with
      | @ascii c hc =>
        simp only [List.mem_cons, List.not_mem_nil, or_false, not_or] at hc
        have h224 : c ≠ 224 := by rintro rfl; exact hpr
        have : decodeFirst c = .post (.ascii c) := by simp [decodeFirst, hc, h224]
        exact ⟨by simp [winKey, this], .inr (.inr ⟨_, _, rfl, this⟩)⟩
      | @extended c hc =>
        simp only [List.mem_cons, List.not_mem_nil, or_false, not_or] at hc
        exact ⟨by simp [winKey, decodeSymbol, hc], .inr (.inl ⟨_, rfl⟩)⟩
      | function => exact hpr.elim
      | backspace => exact ⟨rfl, .inr (.inr ⟨_, _, rfl, rfl⟩)⟩
      | clear => exact ⟨rfl, .inr (.inr ⟨_, _, rfl, rfl⟩)⟩
      | ret => exact ⟨rfl, .inr (.inr ⟨_, _, rfl, rfl⟩)⟩
      | ctrlC => exact ⟨rfl, .inr (.inr ⟨_, _, rfl, rfl⟩)⟩
      | ctrlD => exact ⟨rfl, .inr (.inr ⟨_, _, rfl, rfl⟩)⟩
      | ctrlZ => exact ⟨rfl, .inr (.inr ⟨_, _, rfl, rfl⟩)⟩
      | _ => exact ⟨rfl, .inr (.inl ⟨_, rfl⟩)⟩
    refine ⟨by simp [hr.1, ← h1], ?_⟩
    intro r' hr'
    rcases List.mem_cons.1 hr' with rfl | hr'
    · exact hr.2
    · exact h2 r' hr'

/-- What the thread has taken and not yet posted. -/
def winFlight (s : Kb) : List Key :=
  match s.reader, s.carry with
  | .symbol, some c => [decodeSymbol c]
  | .post k, _ => [k]
  | _, _ => []

/-- The second code is there exactly between the two calls of `_getch`. -/
structure WinInv (s : Kb) : Prop where
  carry : s.reader = .symbol ↔ s.carry.isSome = true
  good : ∀ r ∈ s.records, WinGood r

theorem getch_good {rs : List Rec} (hg : ∀ r ∈ rs, WinGood r) {c : Byte} {b : Option Byte} {rs' : List Rec} (h : getch none rs = some (c, b, rs')) :
    (∀ r ∈ rs', WinGood r) ∧ ((c = 224 ∧ ∃ d, b = some d ∧ rs.filterMap winKey = decodeSymbol d :: rs'.filterMap winKey) ∨ (b = none ∧ ∃ k, decodeFirst c = .post k ∧ rs.filterMap winKey = k :: rs'.filterMap winKey)) := by
  induction rs with
  | nil => cases h
  | cons r rs ih =>
    cases r with
    | other =>
      obtain ⟨h1, h2⟩ := ih (fun r hr => hg r (by simp [hr])) h
      exact ⟨h1, by rw [winKey_other]; exact h2⟩
    | press a b' =>
      simp only [getch] at h
      cases h
      refine ⟨fun r hr => hg r (by simp [hr]), ?_⟩
      rcases hg (.press c b) (by simp) with h | ⟨d, h⟩ | ⟨d, k, h, h'⟩
      · cases h
      · cases h; exact .inl ⟨rfl, d, rfl, by simp [winKey]⟩
      · cases h; exact .inr ⟨rfl, k, h', by simp [winKey, h']⟩

theorem winInv_step {s s' : Kb} {e : WinKeyboard.Ev} (hi : WinInv s) (he : ∀ r, e = .arrive r → WinGood r) (h : WinKeyboard.step s e = some s') :
    WinInv s' ∧ s'.posted ++ winFlight s' ++ s'.records.filterMap winKey = s.posted ++ winFlight s ++ s.records.filterMap winKey ++ (winArrived [e]).filterMap winKey := by
  obtain ⟨rd, cy, rs, st, po⟩ := s
  obtain ⟨hc, hg⟩ := hi
  cases e with
  | wake =>
    cases rd <;> simp only [WinKeyboard.step] at h <;> try cases h
    cases cy with
    | some c => simp at hc
    | none =>
      split at h
      · cases h; exact ⟨⟨by simp, hg⟩, by simp [winFlight, winArrived]⟩
      · split at h
        · cases h; exact ⟨⟨by simp, hg⟩, by simp [winFlight, winArrived]⟩
        · cases h
  | getch =>
    cases rd <;> simp only [WinKeyboard.step] at h <;> try cases h
    · cases cy with
      | some c => simp at hc
      | none =>
        simp only [Option.map_eq_some_iff] at h
        obtain ⟨⟨c, b, rs'⟩, h1, h2⟩ := h
        obtain ⟨g1, g2⟩ := getch_good hg h1
        simp only at h2 g1 g2 ⊢
        subst h2
        rcases g2 with ⟨rfl, d, rfl, g⟩ | ⟨rfl, k, hk, g⟩
        · exact ⟨⟨by simp [decodeFirst], g1⟩, by simp [winFlight, winArrived, decodeFirst, g]⟩
        · exact ⟨⟨by simp [hk], g1⟩, by simp [winFlight, winArrived, hk, g]⟩
    · cases cy with
      | none => simp at hc
      | some c =>
        simp only [getch, Option.map_some, Option.some.injEq] at h
        subst h
        exact ⟨⟨by simp, hg⟩, by simp [winFlight, winArrived]⟩
  | post =>
    cases rd <;> simp only [WinKeyboard.step] at h <;> cases h
    cases cy with
    | some c => simp at hc
    | none => exact ⟨⟨by simp, hg⟩, by simp [winFlight, winArrived]⟩
  | stop =>
    simp only [WinKeyboard.step] at h
    split at h <;> cases h
    exact ⟨⟨hc, hg⟩, by simp [winFlight, winArrived]⟩
  | arrive r =>
    simp only [WinKeyboard.step] at h
    cases h
    refine ⟨⟨hc, ?_⟩, by simp [winFlight, winArrived, List.filterMap_append]⟩
    intro r' hr'
    rcases List.mem_append.1 hr' with hr' | hr'
    · exact hg r' hr'
    · rw [List.mem_singleton.1 hr']; exact he r rfl

theorem winInv_steps (es : List WinKeyboard.Ev) : ∀ {s s' : Kb}, WinInv s → (∀ r ∈ winArrived es, WinGood r) → WinKeyboard.steps s es = some s' →
    WinInv s' ∧ s'.posted ++ winFlight s' ++ s'.records.filterMap winKey = s.posted ++ winFlight s ++ s.records.filterMap winKey ++ (winArrived es).filterMap winKey := by
  induction es with
  | nil => intro s s' hi _ h; cases h; exact ⟨hi, by simp [winArrived]⟩
  | cons e es ih =>
    intro s s' hi hg h
    simp only [WinKeyboard.steps, Option.bind_eq_some_iff] at h
    obtain ⟨s1, h1, h2⟩ := h
    have hx : winArrived (e :: es) = winArrived [e] ++ winArrived es := by cases e <;> rfl
    have hg1 : ∀ r, e = .arrive r → WinGood r := by rintro r rfl; exact hg r (by simp [winArrived])
    obtain ⟨g1, g2⟩ := winInv_step hi hg1 h1
    obtain ⟨g3, g4⟩ := ih g1 (fun r hr => hg r (by rw [hx]; simp [hr])) h2
    exact ⟨g3, by rw [g4, g2, hx, List.filterMap_append]; simp⟩

theorem winInv_init : WinInv init := ⟨by simp [init], by simp [init]⟩

/-- **C82** (part) Whatever keys are pressed, and whatever other records the console gets (releases of keys, the mouse), the keys posted to the scheduler are at any time the first ones of those pressed, in order; and once the thread
    waits with no key press in the buffer they are all of them. Missing: function keys and the character 224, for which it is refuted below. -/
theorem C82_keys_partial (es : List WinKeyboard.Ev) (s : Kb) (h : WinKeyboard.steps init es = some s) (ks : List Key) (ht : WinTyped ks (winArrived es)) (hp : ∀ r ∈ winArrived es, WinPlain r) :
    s.posted <+: ks ∧ (s.reader = .wait → (∀ r ∈ s.records, r = .other) → s.posted = ks) := by
  obtain ⟨hk, hg⟩ := winTyped_good ht hp
  obtain ⟨hi, he⟩ := winInv_steps es winInv_init hg h
  have he' : s.posted ++ winFlight s ++ s.records.filterMap winKey = ks := by rw [he, hk]; simp [init, winFlight]
  constructor
  · exact ⟨winFlight s ++ s.records.filterMap winKey, by rw [← he']; simp⟩
  · intro hr ho
    have hc : s.carry = none := by
      cases hcy : s.carry with
      | none => rfl
      | some c => have := hi.carry.2 (by simp [hcy]); rw [hr] at this; cases this
    have hf : s.records.filterMap winKey = [] := by
      rw [List.filterMap_eq_nil_iff]
      intro r hr'
      rw [ho r hr']; rfl
    rw [hf] at he'
    simpa [winFlight, hr, hc] using he'

/-- The steps of the reader thread. -/
def WinOwn (e : WinKeyboard.Ev) : Prop := e = .wake ∨ e = .getch ∨ e = .post

/-- Decreases with every step of the thread. -/
def winMeasure (s : Kb) : Nat :=
  4 * s.records.length + match s.reader with
  | .wait => 1
  | .first => 0
  | .symbol => 3
  | .post _ => 2
  | .ended => 0

theorem getch_length {o : Option Byte} {rs rs' : List Rec} {c : Byte} {b : Option Byte} (h : getch o rs = some (c, b, rs')) : (o = none → rs'.length + 1 ≤ rs.length) ∧ rs'.length ≤ rs.length := by
  cases o with
  | some d => simp only [getch] at h; cases h; simp
  | none =>
    induction rs with
    | nil => cases h
    | cons r rs ih =>
      cases r with
      | other => have := ih h; simp only [List.length_cons]; omega
      | press a b' => simp only [getch] at h; cases h; simp

theorem win_ended (es : List WinKeyboard.Ev) : ∀ (s s' : Kb), s.stopped = false → s.reader ≠ .ended → .stop ∉ es → WinKeyboard.steps s es = some s' → s'.stopped = false ∧ s'.reader ≠ .ended := by
  induction es with
  | nil => intro s s' h1 h2 _ h; cases h; exact ⟨h1, h2⟩
  | cons e es ih =>
    intro s s' h1 h2 hn h
    simp only [WinKeyboard.steps, Option.bind_eq_some_iff] at h
    obtain ⟨s1, g1, g2⟩ := h
    refine ih s1 s' ?_ ?_ (fun hm => hn (by simp [hm])) g2
    · cases e with
      | stop => simp at hn
      | wake =>
        simp only [WinKeyboard.step] at g1
        split at g1
        · rw [h1] at g1
          simp only [Bool.false_eq_true, if_false] at g1
          split at g1 <;> cases g1
          rfl
        · cases g1
      | getch =>
        simp only [WinKeyboard.step] at g1
        split at g1
        · simp only [Option.map_eq_some_iff] at g1; obtain ⟨_, _, rfl⟩ := g1; exact h1
        · simp only [Option.map_eq_some_iff] at g1; obtain ⟨_, _, rfl⟩ := g1; exact h1
        · cases g1
      | post =>
        simp only [WinKeyboard.step] at g1
        split at g1 <;> cases g1
        exact h1
      | arrive r => simp only [WinKeyboard.step] at g1; cases g1; exact h1
    · cases e with
      | stop => simp at hn
      | wake =>
        simp only [WinKeyboard.step] at g1
        split at g1
        · rw [h1] at g1
          simp only [Bool.false_eq_true, if_false] at g1
          split at g1 <;> cases g1
          simp
        · cases g1
      | getch =>
        simp only [WinKeyboard.step] at g1
        split at g1
        · simp only [Option.map_eq_some_iff] at g1
          obtain ⟨_, _, rfl⟩ := g1
          simp only [decodeFirst]
          repeat' split
          all_goals simp
        · simp only [Option.map_eq_some_iff] at g1; obtain ⟨_, _, rfl⟩ := g1; simp
        · cases g1
      | post =>
        simp only [WinKeyboard.step] at g1
        split at g1 <;> cases g1
        simp
      | arrive r => simp only [WinKeyboard.step] at g1; cases g1; exact h2

/-- **C82** While a key press is in the buffer the thread can make a step unless it has been told to stop, and without further input it makes only a bounded number of them: every key pressed is posted in the end. -/
theorem C82_progress (es : List WinKeyboard.Ev) (s : Kb) (h : WinKeyboard.steps init es = some s) (ks : List Key) (ht : WinTyped ks (winArrived es)) (hp : ∀ r ∈ winArrived es, WinPlain r) :
    (s.posted ≠ ks → s.reader ≠ .ended → ∃ e, WinOwn e ∧ (WinKeyboard.step s e).isSome) ∧ (.stop ∉ es → s.reader ≠ .ended) ∧
    (∀ es' s', (∀ e ∈ es', WinOwn e) → WinKeyboard.steps s es' = some s' → es'.length + winMeasure s' ≤ winMeasure s) := by
  obtain ⟨hk, hg⟩ := winTyped_good ht hp
  obtain ⟨hi, he⟩ := winInv_steps es winInv_init hg h
  have hall := (C82_keys_partial es s h ks ht hp).2
  have he' : s.posted ++ winFlight s ++ s.records.filterMap winKey = ks := by rw [he, hk]; simp [init, winFlight]
  have can : ∀ rs : List Rec, rs.filterMap winKey ≠ [] → (getch none rs).isSome := by
    intro rs hrs
    induction rs with
    | nil => exact absurd rfl hrs
    | cons r rs ih =>
      cases r with
      | other => exact ih (by rw [winKey_other] at hrs; exact hrs)
      | press a b => rfl
  constructor
  · intro hne hnd
    cases hr : s.reader with
    | ended => exact absurd hr hnd
    | wait =>
      refine ⟨.wake, .inl rfl, ?_⟩
      have : s.records ≠ [] := by
        intro hrs
        exact hne (hall hr (by simp [hrs]))
      simp only [WinKeyboard.step, hr]
      split
      · rfl
      · simp [this]
    | post k => exact ⟨.post, .inr (.inr rfl), by simp [WinKeyboard.step, hr]⟩
    | symbol =>
      refine ⟨.getch, .inr (.inl rfl), ?_⟩
      have hc := hi.carry.1 hr
      obtain ⟨c, hc⟩ := Option.isSome_iff_exists.1 hc
      simp [WinKeyboard.step, hr, hc, getch]
    | first =>
      refine ⟨.getch, .inr (.inl rfl), ?_⟩
      have hc : s.carry = none := by
        cases hcy : s.carry with
        | none => rfl
        | some c => have := hi.carry.2 (by simp [hcy]); rw [hr] at this; cases this
      have hf : s.records.filterMap winKey ≠ [] := by
        intro hf
        rw [hf] at he'
        exact hne (by simpa [winFlight, hr, hc] using he')
      have := can _ hf
      rw [← hc] at this
      simp only [WinKeyboard.step, hr, Option.isSome_map]
      exact this
  refine ⟨fun hn => (win_ended es _ _ rfl (by simp [init]) hn h).2, ?_⟩
  · intro es'
    clear hall he' he hg hk ht hp h
    induction es' generalizing s with
    | nil => intro s' _ h; cases h; simp
    | cons e es' ih =>
      intro s' ho hs
      simp only [WinKeyboard.steps, Option.bind_eq_some_iff] at hs
      obtain ⟨s1, h1, h2⟩ := hs
      have hone : WinInv s1 ∧ winMeasure s1 + 1 ≤ winMeasure s := by
        refine ⟨(winInv_step hi ?_ h1).1, ?_⟩
        · rintro r rfl
          rcases ho (.arrive r) (by simp) with h | h | h <;> cases h
        · obtain ⟨rd, cy, rs, st, po⟩ := s
          rcases ho e (by simp) with rfl | rfl | rfl
          · cases rd <;> simp only [WinKeyboard.step] at h1 <;> try cases h1
            split at h1
            · cases h1; simp [winMeasure]
            · split at h1
              · cases h1; simp [winMeasure]
              · cases h1
          · cases rd <;> simp only [WinKeyboard.step] at h1 <;> try cases h1
            · cases cy with
              | some c => simpa using hi.carry
              | none =>
                simp only [Option.map_eq_some_iff] at h1
                obtain ⟨⟨c, b, rs'⟩, g1, g2⟩ := h1
                have := (getch_length g1).1 rfl
                simp only at g2
                subst g2
                simp only [winMeasure]
                have hd : ∀ c : Byte, (match decodeFirst c with | .wait => 1 | .first => 0 | .symbol => 3 | .post _ => 2 | .ended => 0) ≤ 3 := by
                  intro c; split <;> omega
                have := hd c
                omega
            · simp only [Option.map_eq_some_iff] at h1
              obtain ⟨⟨c, b, rs'⟩, g1, g2⟩ := h1
              have := (getch_length g1).2
              simp only at g2
              subst g2
              simp only [winMeasure]
              omega
          · cases rd <;> simp only [WinKeyboard.step] at h1 <;> cases h1
            simp [winMeasure]
      have := ih s1 hone.1 s' (fun e h => ho e (by simp [h])) h2
      have := hone.2
      simp only [List.length_cons]
      omega

/-- Up, `a`, Enter, with the releases of the keys. -/
def winEvents : List WinKeyboard.Ev :=
  [.arrive (.press 224 (some 72)), .wake, .arrive .other, .getch, .getch, .post, .arrive (.press b%'a' none), .arrive .other, .arrive (.press 13 none), .wake, .getch, .post, .wake, .getch, .post]

example : ∃ s, WinKeyboard.steps init winEvents = some s ∧ s.posted = [.up, .ascii b%'a', .ret] ∧ WinTyped [.up, .ascii b%'a', .ret] (winArrived winEvents) ∧ ∀ r ∈ winArrived winEvents, WinPlain r :=
  ⟨_, rfl, rfl, .key .up (.other (.key (.ascii (by decide)) (.other (.key .ret .nil)))), by simp [winArrived, winEvents, WinPlain]⟩

/-- **C82 refuted** The function key F1, 0 and 59, is taken for the characters NUL and `;`. -/
theorem C82_function_key_refuted : WinTyped [.ignored] [.press 0 (some 59), .other] ∧
    ∃ s, WinKeyboard.steps init [.arrive (.press 0 (some 59)), .wake, .getch, .post, .arrive .other, .wake, .getch, .post] = some s ∧ s.posted = [.ascii 0, .ascii b%';'] :=
  ⟨.key .function (.other .nil), _, rfl, rfl⟩

/-- **C82 refuted** The character 224 (a letter in most code pages) is lost, and so is the key pressed after it, here Enter. -/
theorem C82_character_224_refuted : WinTyped [.ascii 224, .ret] [.press 224 none, .press 13 none] ∧
    ∃ s, WinKeyboard.steps init [.arrive (.press 224 none), .wake, .getch, .arrive (.press 13 none), .getch, .post] = some s ∧ s.posted = [.ignored] ∧ s.records = [] :=
  ⟨.key (.ascii (by decide)) (.key .ret .nil), _, rfl, rfl, rfl⟩

/-! ### C83 -/

/-- No key is pressed. -/
def NoPress (e : WinKeyboard.Ev) : Prop := ∀ a b, e ≠ .arrive (.press a b)

theorem stuck_steps (es : List WinKeyboard.Ev) : ∀ {s s' : Kb}, s.reader = .first → s.carry = none → (∀ r ∈ s.records, r = .other) → (∀ e ∈ es, NoPress e) → WinKeyboard.steps s es = some s' → s'.reader = .first := by
  have none_of : ∀ rs : List Rec, (∀ r ∈ rs, r = .other) → getch none rs = none := by
    intro rs
    induction rs with
    | nil => intro _; rfl
    | cons r rs ih =>
      intro h
      rw [h r (by simp)]
      exact ih (fun r hr => h r (by simp [hr]))
  induction es with
  | nil => intro s s' h _ _ _ hs; cases hs; exact h
  | cons e es ih =>
    intro s s' h1 h2 h3 he hs
    simp only [WinKeyboard.steps, Option.bind_eq_some_iff] at hs
    obtain ⟨s1, g1, g2⟩ := hs
    have hes := fun e h => he e (List.mem_cons_of_mem _ h)
    cases e with
    | wake => simp [WinKeyboard.step, h1] at g1
    | post => simp [WinKeyboard.step, h1] at g1
    | getch => simp [WinKeyboard.step, h1, h2, none_of _ h3] at g1
    | stop =>
      simp only [WinKeyboard.step] at g1
      split at g1 <;> cases g1
      exact ih (s := { s with stopped := true }) h1 h2 h3 hes g2
    | arrive r =>
      simp only [WinKeyboard.step] at g1
      cases g1
      cases r with
      | press a b => exact absurd rfl (he _ (by simp) a b)
      | other =>
        refine ih (s := { s with records := s.records ++ [.other] }) h1 h2 ?_ hes g2
        intro r hr
        rcases List.mem_append.1 hr with hr | hr
        · exact h3 r hr
        · exact List.mem_singleton.1 hr

/-- **C83 refuted** Any record that is no key press, such as the release of the last key, sends the thread into `_getch`, where it does not notice the stop event: the destructor does not return before a key is pressed. -/
theorem C83_release_refuted (es : List WinKeyboard.Ev) (he : ∀ e ∈ es, NoPress e) (s : Kb) (h : WinKeyboard.steps init (.arrive .other :: .wake :: .stop :: es) = some s) : s.reader ≠ .ended := by
  simp only [WinKeyboard.steps, WinKeyboard.step, init, Option.bind_some, Bool.false_eq_true, if_false, List.nil_append, ne_eq, List.cons_ne_nil, not_false_eq_true, if_true] at h
  rw [stuck_steps es rfl rfl (by simp) he h]
  simp

example : ∃ s, WinKeyboard.steps init [.arrive .other, .wake, .stop, .arrive .other] = some s := ⟨_, rfl⟩

/-- **C83** (part) Once the destructor has set the stop event, the thread ends after at most four more steps, and it can make a step unless it is in `_getch` and there is no key press. -/
theorem C83_joins_partial (s : Kb) (hs : s.stopped = true) :
    (∀ es s', (∀ e ∈ es, WinOwn e) → WinKeyboard.steps s es = some s' → es.length ≤ 4) ∧
    (s.reader ≠ .ended → ((s.reader ≠ .first ∧ s.reader ≠ .symbol) ∨ (getch s.carry s.records).isSome) → ∃ e, WinOwn e ∧ (WinKeyboard.step s e).isSome) := by
  have rank : ∀ (s s' : Kb) e, s.stopped = true → WinOwn e → WinKeyboard.step s e = some s' →
      s'.stopped = true ∧ (match s'.reader with | .first => 4 | .symbol => 3 | .post _ => 2 | .wait => 1 | .ended => 0) + 1 ≤ (match s.reader with | .first => 4 | .symbol => 3 | .post _ => 2 | .wait => 1 | .ended => 0) := by
    intro s s' e hs ho h
    obtain ⟨rd, cy, rs, st, po⟩ := s
    simp only at hs
    subst hs
    rcases ho with rfl | rfl | rfl
    · cases rd <;> simp only [WinKeyboard.step] at h <;> try cases h
      exact ⟨rfl, by simp⟩
    · cases rd <;> simp only [WinKeyboard.step] at h <;> try cases h
      · simp only [Option.map_eq_some_iff] at h
        obtain ⟨⟨c, b, rs'⟩, g1, g2⟩ := h
        simp only at g2
        subst g2
        refine ⟨rfl, ?_⟩
        simp only [decodeFirst]
        split <;> rename_i h0
        · split at h0 <;> try cases h0
          split at h0 <;> try cases h0
          split at h0 <;> try cases h0
          split at h0 <;> try cases h0
          split at h0 <;> cases h0
        · omega
        · omega
        · omega
        · omega
      · simp only [Option.map_eq_some_iff] at h
        obtain ⟨⟨c, b, rs'⟩, g1, g2⟩ := h
        simp only at g2
        subst g2
        exact ⟨rfl, by simp⟩
    · cases rd <;> simp only [WinKeyboard.step] at h <;> cases h
      exact ⟨rfl, by simp⟩
  constructor
  · intro es s' ho h
    have gen : ∀ (es : List WinKeyboard.Ev) (s : Kb), s.stopped = true → (∀ e ∈ es, WinOwn e) → WinKeyboard.steps s es = some s' →
        es.length ≤ (match s.reader with | .first => 4 | .symbol => 3 | .post _ => 2 | .wait => 1 | .ended => 0) := by
      intro es
      induction es with
      | nil => intro s _ _ _; simp
      | cons e es ih =>
        intro s hs ho h
        simp only [WinKeyboard.steps, Option.bind_eq_some_iff] at h
        obtain ⟨s1, h1, h2⟩ := h
        obtain ⟨g1, g2⟩ := rank s s1 e hs (ho e (by simp)) h1
        have := ih s1 g1 (fun e h => ho e (by simp [h])) h2
        simp only [List.length_cons]
        omega
    have h1 := gen es s hs ho h
    have h2 : (match s.reader with | .first => 4 | .symbol => 3 | .post _ => 2 | .wait => 1 | .ended => 0) ≤ 4 := by split <;> omega
    omega
  · intro hne hc
    cases hr : s.reader with
    | ended => exact absurd hr hne
    | wait => exact ⟨.wake, .inl rfl, by simp [WinKeyboard.step, hr, hs]⟩
    | post k => exact ⟨.post, .inr (.inr rfl), by simp [WinKeyboard.step, hr]⟩
    | first =>
      refine ⟨.getch, .inr (.inl rfl), ?_⟩
      rcases hc with h | h
      · exact absurd hr h.1
      · simp only [WinKeyboard.step, hr, Option.isSome_map]; exact h
    | symbol =>
      refine ⟨.getch, .inr (.inl rfl), ?_⟩
      rcases hc with h | h
      · exact absurd hr h.2
      · simp only [WinKeyboard.step, hr, Option.isSome_map]; exact h

example : ∃ s, WinKeyboard.steps init [.arrive (.press b%'x' none), .wake, .stop, .getch, .post, .wake] = some s ∧ s.reader = .ended := ⟨_, rfl, rfl⟩

/-- **C83** (part) The destructor can set the stop event in every state that is reached before, without disturbing the reader; a reader that waits ends when it wakes up. -/
theorem C83_stop_partial (es : List WinKeyboard.Ev) (hn : .stop ∉ es) (s : Kb) (h : WinKeyboard.steps init es = some s) :
    WinKeyboard.step s .stop = some { s with stopped := true } ∧
    (s.reader = .wait → WinKeyboard.steps s [.stop, .wake] = some { s with stopped := true, reader := .ended }) := by
  have hs := (win_ended es init s rfl (by simp [init]) hn h).1
  have h1 : WinKeyboard.step s .stop = some { s with stopped := true } := by simp [WinKeyboard.step, hs]
  exact ⟨h1, fun hw => by simp [WinKeyboard.steps, WinKeyboard.step, hw, hs]⟩

example : ∃ s, WinKeyboard.steps init [.arrive (.press b%'x' none), .wake, .getch, .post] = some s ∧ s.reader = .wait ∧ s.posted = [.ascii b%'x'] := ⟨_, rfl, rfl, rfl⟩

end Verif.Props
