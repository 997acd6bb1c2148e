import Verif.Model.Keyboards
import Verif.Props.LocalSession

set_option linter.unusedSimpArgs false

/-!
# Property C102: several local sessions on one terminal
-/

namespace Verif.Props
open Keyboard (Kb decode)
open Terminal (Key)

variable {α : Type}

/-! ### What is typed -/

/-- The bytes typed. -/
def struckAll : List (Keyboards.Ev α) → Str
  | [] => []
  | .arrive b :: es => b :: struckAll es
  | _ :: es => struckAll es

/-- The byte read in an event, and which keyboard reads it. -/
def readNow (s : Keyboards.St α) : Keyboards.Ev α → List (Nat × Byte)
  | .kb i .getc => s.input.head?.toList.map (fun c => (i, c))
  | _ => []

/-- The bytes read, in order, and which keyboard has read them. -/
def got (p : Platform) (manual : α → α) : List (Keyboards.Ev α) → Keyboards.St α → List (Nat × Byte)
  | [], _ => []
  | e :: es, s =>
    match Keyboards.step p manual s e with
    | none => []
    | some s' => readNow s e ++ got p manual es s'

/-- What keyboard `i` has read. -/
def share (i : Nat) (l : List (Nat × Byte)) : Str := (l.filter (fun q => q.1 == i)).map (·.2)

/-- The bytes `arr` have been typed, and `H` has been read. -/
structure Shared (p : Platform) (arr : Str) (H : List (Nat × Byte)) (s : Keyboards.St α) : Prop where
  all : arr = H.map (·.2) ++ s.input
  each : ∀ i k, s.kbs[i]? = some k → k.closed = false ∧ Decoded p (share i H) k
  none : ∀ i, s.kbs.length ≤ i → share i H = []

theorem share_append (i : Nat) (a b : List (Nat × Byte)) : share i (a ++ b) = share i a ++ share i b := by simp [share]

theorem struckAll_cons (e : Keyboards.Ev α) (es : List (Keyboards.Ev α)) : struckAll (e :: es) = struckAll [e] ++ struckAll es := by cases e <;> rfl

/-- A step of a keyboard, other than reading a byte, leaves what has been typed alone. -/
theorem kb_other {p : Platform} {manual : α → α} {k k' : Kb α} {e : Keyboard.Ev α} {r : Str} (ho : Keyboards.own e = true) (hn : e ≠ .getc) (hd : Decoded p r k) (h : Keyboard.step p manual k e = some k') :
    k'.input = k.input ∧ k'.closed = k.closed ∧ Decoded p r k' := by
  cases e with
  | check =>
    simp only [Keyboard.step] at h; split at h <;> cases h
    rename_i hc
    exact ⟨rfl, rfl, by unfold Decoded at hd ⊢; rw [hc.1] at hd; exact hd⟩
  | ready =>
    simp only [Keyboard.step] at h
    split at h
    · rename_i hc
      unfold Decoded at hd
      rw [hc] at hd
      split at h
      · cases h; exact ⟨rfl, rfl, by unfold Decoded; exact hd⟩
      · split at h <;> cases h
        exact ⟨rfl, rfl, by unfold Decoded; exact hd⟩
    · cases h
  | post =>
    simp only [Keyboard.step] at h
    split at h
    · rename_i key hpc
      cases h
      exact ⟨rfl, rfl, by unfold Decoded at hd ⊢; rw [hpc] at hd; exact hd⟩
    · cases h
  | getc => exact absurd rfl hn
  | activate => cases h; exact ⟨rfl, rfl, decoded_tty hd rfl rfl⟩
  | deactivate => cases h; exact ⟨rfl, rfl, decoded_tty hd rfl rfl⟩
  | stop => cases h; exact ⟨rfl, rfl, decoded_tty hd rfl rfl⟩
  | _ => cases ho

theorem shared_step {p : Platform} {manual : α → α} {arr : Str} {H : List (Nat × Byte)} {s s' : Keyboards.St α} {e : Keyboards.Ev α} (g : Shared p arr H s) (h : Keyboards.step p manual s e = some s') :
    Shared p (arr ++ struckAll [e]) (H ++ readNow s e) s' := by
  cases e with
  | new =>
    cases h
    refine ⟨by simpa [struckAll, readNow] using g.all, ?_, ?_⟩
    · intro i k hk
      simp only [readNow, List.append_nil]
      rw [List.getElem?_append] at hk
      split at hk
      · exact g.each i k hk
      · rename_i hlt
        have hi := List.getElem?_eq_some_iff.1 hk
        obtain ⟨hi1, hi2⟩ := hi
        simp only [List.length_singleton] at hi1
        have : k = Keyboard.init manual s.tty := by
          rw [← hi2]
          simp
        rw [this, g.none i (by omega)]
        exact ⟨rfl, rfl⟩
    · intro i hi
      simp only [List.length_append, List.length_singleton] at hi
      simpa [readNow] using g.none i (by omega)
  | arrive b =>
    cases h
    exact ⟨by simp [struckAll, readNow, g.all], by simpa [readNow] using g.each, by simpa [readNow] using g.none⟩
  | setTty a =>
    cases h
    exact ⟨by simpa [struckAll, readNow] using g.all, by simpa [readNow] using g.each, by simpa [readNow] using g.none⟩
  | kb i e =>
    simp only [Keyboards.step] at h
    split at h
    · rename_i ho
      split at h
      · cases h
      · rename_i k hk
        split at h
        · cases h
        · rename_i k' hk'
          cases h
          obtain ⟨hc, hd⟩ := g.each i k hk
          have hd' : Decoded p (share i H) (Keyboards.seen s k) := decoded_tty hd rfl rfl
          have hlt : i < s.kbs.length := (List.getElem?_eq_some_iff.1 hk).1
          by_cases hg : e = .getc
          · subst hg
            simp only [Keyboard.step] at hk'
            split at hk'
            · rename_i pc hpc
              split at hk'
              · rw [show (Keyboards.seen s k).closed = k.closed from rfl, hc] at hk'; simp at hk'
              · rename_i c rest hi
                have hi : s.input = c :: rest := hi
                cases hk'
                have hnew : share i [(i, c)] = [c] := by simp [share]
                have hold : ∀ j, j ≠ i → share j [(i, c)] = [] := by
                  intro j hj
                  simp [share, Ne.symm hj]
                simp only [readNow, hi, List.head?_cons, Option.toList_some, List.map_cons, List.map_nil]
                refine ⟨by rw [g.all, hi]; simp [struckAll], ?_, ?_⟩
                · intro j kj hj
                  by_cases hij : j = i
                  · subst hij
                    rw [List.getElem?_set_self hlt] at hj
                    cases hj
                    rw [share_append, hnew]
                    exact ⟨hc, decoded_after p (share j H) (Keyboards.seen s k) pc c _ _ hpc hd'⟩
                  · rw [List.getElem?_set_ne (Ne.symm hij)] at hj
                    rw [share_append, hold j hij, List.append_nil]
                    exact g.each j kj hj
                · intro j hj
                  simp only [List.length_set] at hj
                  rw [share_append, hold j (by omega), List.append_nil]
                  exact g.none j hj
            · cases hk'
          · obtain ⟨e1, e2, e3⟩ := kb_other ho hg hd' hk'
            have hm : readNow s (Keyboards.Ev.kb i e) = [] := by
              cases e <;> first | rfl | exact absurd rfl hg
            rw [hm, List.append_nil]
            refine ⟨by rw [e1]; simpa [struckAll, Keyboards.seen] using g.all, ?_, ?_⟩
            · intro j kj hj
              by_cases hij : j = i
              · subst hij
                rw [List.getElem?_set_self hlt] at hj
                cases hj
                exact ⟨e2.trans hc, e3⟩
              · rw [List.getElem?_set_ne (Ne.symm hij)] at hj
                exact g.each j kj hj
            · intro j hj
              simp only [List.length_set] at hj
              exact g.none j hj
    · cases h

theorem shared_steps {p : Platform} {manual : α → α} (es : List (Keyboards.Ev α)) : ∀ {arr : Str} {H : List (Nat × Byte)} {s s' : Keyboards.St α}, Shared p arr H s → Keyboards.steps p manual s es = some s' →
    Shared p (arr ++ struckAll es) (H ++ got p manual es s) s' := by
  induction es with
  | nil => intro arr H s s' g h; cases h; simpa [struckAll, got] using g
  | cons e es ih =>
    intro arr H s s' g h
    simp only [Keyboards.steps] at h
    split at h
    · cases h
    · rename_i s1 h1
      have := ih (shared_step g h1) h
      rw [List.append_assoc, ← struckAll_cons, List.append_assoc] at this
      simp only [got, h1]
      exact this

/-- **C102** Whatever the reader threads do: every byte typed is read by one of the keyboards, or still waits, each once and in the order of typing; and the keys that a keyboard posts are those of the bytes that it has read itself. -/
theorem C102_shares (p : Platform) (manual : α → α) (tty : α) (es : List (Keyboards.Ev α)) (s : Keyboards.St α) (h : Keyboards.steps p manual (Keyboards.init tty) es = some s) :
    struckAll es = (got p manual es (Keyboards.init tty)).map (·.2) ++ s.input ∧
    ∀ i k, s.kbs[i]? = some k → k.posted <+: (decode p .first (share i (got p manual es (Keyboards.init tty)))).2 ∧ (k.reader = .wait → k.posted = (decode p .first (share i (got p manual es (Keyboards.init tty)))).2) := by
  have g0 : Shared p [] [] (Keyboards.init tty) := ⟨rfl, (fun i k h => by cases h), fun _ _ => rfl⟩
  have g := shared_steps es g0 h
  simp only [List.nil_append] at g
  refine ⟨g.all, fun i k hk => ?_⟩
  have hd := (g.each i k hk).2
  unfold Decoded at hd
  constructor
  · split at hd <;> rw [hd]
    · exact List.prefix_refl _
    · exact List.prefix_refl _
    · exact List.prefix_refl _
    · exact List.prefix_refl _
    · exact List.prefix_append _ _
  · intro hw
    rw [hw] at hd
    rw [hd]

/-- The key of a byte that is not the beginning of an escape sequence. -/
def plainKey (p : Platform) (c : Byte) : Key :=
  match Keyboard.next p .first c with
  | .inr k => k
  | .inl _ => .ignored

theorem decode_plain (p : Platform) (r : Str) (hr : (27 : Byte) ∉ r) : decode p .first r = (.first, r.map (plainKey p)) := by
  induction r with
  | nil => rfl
  | cons c r ih =>
    have hc : c ≠ 27 := fun h => hr (by simp [h])
    have hn : ∃ k, Keyboard.next p .first c = .inr k := by
      unfold Keyboard.next
      simp only [hc, if_false]
      repeat' split
      all_goals exact ⟨_, rfl⟩
    obtain ⟨k, hk⟩ := hn
    simp only [decode, hk, ih (fun h => hr (by simp [h])), List.map_cons, plainKey]

/-- **C102** (partial) If no escape sequences are typed, every key typed is posted, once, by one of the keyboards, and each keyboard posts its keys in the order of typing: when all readers are idle and nothing waits, the keys posted are those of the
    bytes typed. Missing: keys that send escape sequences, which are torn apart, see `C102_torn_refuted`; and which session gets a key is left to chance. -/
theorem C102_plain_partial (p : Platform) (manual : α → α) (tty : α) (es : List (Keyboards.Ev α)) (s : Keyboards.St α) (h : Keyboards.steps p manual (Keyboards.init tty) es = some s) (he : (27 : Byte) ∉ struckAll es)
    (hi : s.input = []) (hw : ∀ k ∈ s.kbs, k.reader = .wait) :
    ∃ who : List (Nat × Byte), who.map (·.2) = struckAll es ∧ ∀ i k, s.kbs[i]? = some k → k.posted = (share i who).map (plainKey p) := by
  obtain ⟨h1, h2⟩ := C102_shares p manual tty es s h
  rw [hi, List.append_nil] at h1
  refine ⟨_, h1.symm, fun i k hk => ?_⟩
  rw [(h2 i k hk).2 (hw k (List.mem_of_getElem? hk)), decode_plain]
  intro hm
  refine he ?_
  rw [h1]
  simp only [share, List.mem_map, List.mem_filter] at hm
  obtain ⟨q, ⟨hq, _⟩, hq'⟩ := hm
  exact List.mem_map.2 ⟨q, hq, hq'⟩

/-! ### The mode of the terminal -/

/-- Orderly use: sessions are destroyed in the reverse order of their construction, commands are executed one at a time, and no session is constructed or destroyed in a command. `n` sessions have been constructed, those of
    `stack` exist, the last one first, and that of `busy` executes a command. -/
structure Use where
  n : Nat
  stack : List Nat
  busy : Option Nat

def Use.step (u : Use) : Keyboards.Ev α → Option Use
  | .new => if u.busy = none then some { u with n := u.n + 1, stack := u.n :: u.stack } else none
  | .kb i .deactivate => if u.busy = none ∧ i ∈ u.stack then some { u with busy := some i } else none
  | .kb i .activate => if u.busy = some i then some { u with busy := none } else none
  | .kb i .stop => if u.busy = none ∧ u.stack.head? = some i then some { u with stack := u.stack.tail } else none
  | .setTty _ => none
  | _ => some u

def Use.run : List (Keyboards.Ev α) → Use → Option Use
  | [], u => some u
  | e :: es, u =>
    match u.step e with
    | none => none
    | some u' => Use.run es u'

/-- The attributes that a keyboard has found. -/
def found (s : Keyboards.St α) (i : Nat) : Option α := s.kbs[i]?.map (·.oldt)

structure Upright (manual : α → α) (tty : α) (u : Use) (s : Keyboards.St α) : Prop where
  count : s.kbs.length = u.n
  below : ∀ i ∈ u.stack, i < u.n
  nodup : u.stack.Nodup
  /-- the first session has found the original mode, the others the one without echo -/
  olds : ∀ i ∈ u.stack, found s i = some (if u.stack.getLast? = some i then tty else manual tty)
  mode : s.tty = match u.busy with
    | some i => if u.stack.getLast? = some i then tty else manual tty
    | none => if u.stack = [] then tty else manual tty
  busy : ∀ i, u.busy = some i → i ∈ u.stack

theorem found_set (s : Keyboards.St α) (i : Nat) (k k' : Kb α) (inp : Str) (t : α) (hk : s.kbs[i]? = some k) (ho : k'.oldt = k.oldt) (j : Nat) : found ⟨s.kbs.set i k', inp, t⟩ j = found s j := by
  unfold found
  by_cases hij : j = i
  · subst hij
    rw [List.getElem?_set_self (List.getElem?_eq_some_iff.1 hk).1, hk]
    simp [ho]
  · rw [List.getElem?_set_ne (Ne.symm hij)]

theorem upright_step {p : Platform} {manual : α → α} (hid : ∀ a, manual (manual a) = manual a) {tty : α} {u u' : Use} {s s' : Keyboards.St α} {e : Keyboards.Ev α} (g : Upright manual tty u s) (hu : u.step e = some u')
    (h : Keyboards.step p manual s e = some s') : Upright manual tty u' s' := by
  obtain ⟨g1, g2, g3, g4, g5, g6⟩ := g
  cases e with
  | new =>
    simp only [Use.step] at hu
    split at hu <;> cases hu
    rename_i hb
    cases h
    rw [hb] at g5
    simp only at g5
    have hn : u.n ∉ u.stack := fun hm => Nat.lt_irrefl _ (g2 _ hm)
    have last : ∀ i ∈ u.stack, ((u.n :: u.stack).getLast? = some i ↔ u.stack.getLast? = some i) := by
      intro i hi
      cases hs : u.stack with
      | nil => rw [hs] at hi; cases hi
      | cons a l => rw [List.getLast?_cons_cons]
    refine ⟨by simp [g1], ?_, List.nodup_cons.2 ⟨hn, g3⟩, ?_, ?_, by simp [hb]⟩
    · intro i hi
      simp only [List.mem_cons] at hi
      rcases hi with rfl | hi
      · exact Nat.lt_succ_self _
      · exact Nat.lt_succ_of_lt (g2 i hi)
    · intro i hi
      simp only [List.mem_cons] at hi
      rcases hi with rfl | hi
      · have hl : ((u.n :: u.stack).getLast? = some u.n) ↔ u.stack = [] := by
          cases hs : u.stack with
          | nil => simp
          | cons a l =>
            rw [List.getLast?_cons_cons, ← hs]
            constructor
            · intro h; exact absurd (List.mem_of_getLast? h) hn
            · intro h; rw [hs] at h; cases h
        unfold found
        rw [← g1, List.getElem?_append_right (Nat.le_refl _)]
        simp only [Nat.sub_self, List.getElem?_cons_zero, Option.map_some, Option.some.injEq]
        rw [show (Keyboard.init manual s.tty).oldt = s.tty from rfl, g5, g1]
        by_cases he : u.stack = []
        · rw [if_pos he, if_pos (hl.2 he)]
        · rw [if_neg he, if_neg (fun h => he (hl.1 h))]
      · have hlt := g2 i hi
        have : found (⟨s.kbs ++ [Keyboard.init manual s.tty], s.input, manual s.tty⟩ : Keyboards.St α) i = found s i := by
          unfold found
          rw [List.getElem?_append_left (by omega)]
        show found (⟨s.kbs ++ [Keyboard.init manual s.tty], s.input, manual s.tty⟩ : Keyboards.St α) i = _
        rw [this, g4 i hi]
        simp only [last i hi]
    · simp only [hb, reduceCtorEq, if_false]
      rw [g5]
      split
      · rfl
      · exact hid _
  | arrive b => cases hu; cases h; exact ⟨g1, g2, g3, g4, g5, g6⟩
  | setTty a => cases hu
  | kb i e =>
    simp only [Keyboards.step] at h
    split at h
    · rename_i ho
      split at h
      · cases h
      · rename_i k hk
        have hf : found s i = some k.oldt := by simp [found, hk]
        cases e with
        | deactivate =>
          simp only [Use.step] at hu
          split at hu <;> cases hu
          rename_i hc
          cases h
          refine ⟨by simp [g1], g2, g3, ?_, ?_, ?_⟩
          · intro j hj; exact (found_set s i k _ _ _ hk (by rfl) j).trans (g4 j hj)
          · have := g4 i hc.2
            rw [hf] at this
            exact Option.some.inj this
          · intro j hj; cases hj; exact hc.2
        | activate =>
          simp only [Use.step] at hu
          split at hu <;> cases hu
          rename_i hc
          cases h
          rw [hc] at g5
          simp only at g5
          have hm := g6 i hc
          refine ⟨by simp [g1], g2, g3, ?_, ?_, (fun j hj => by cases hj)⟩
          · intro j hj
            refine Eq.trans (found_set s i k _ _ _ hk ?_ j) (g4 j hj)
            have := g4 i hm
            rw [hf] at this
            exact g5.trans (Option.some.inj this).symm
          · have hne : u.stack ≠ [] := List.ne_nil_of_mem hm
            simp only [hne, if_false]
            show manual s.tty = manual tty
            rw [g5]
            split
            · rfl
            · exact hid _
        | stop =>
          simp only [Use.step] at hu
          split at hu <;> cases hu
          rename_i hc
          cases h
          obtain ⟨hb, hh⟩ := hc
          cases hs : u.stack with
          | nil => rw [hs] at hh; cases hh
          | cons a rest =>
            rw [hs] at hh
            cases hh
            rw [hs] at g3 g4
            have hi := g4 i (by simp)
            rw [hf] at hi
            refine ⟨by simp [g1], fun j hj => g2 j (by rw [hs]; exact List.mem_cons_of_mem _ hj), (List.nodup_cons.1 g3).2, ?_, ?_, fun j hj => by rw [hb] at hj; cases hj⟩
            · intro j hj
              refine Eq.trans (found_set s i k _ _ _ hk (by rfl) j) ?_
              simp only [hs, List.tail_cons] at hj
              rw [g4 j (List.mem_cons_of_mem _ hj)]
              cases rest with
              | nil => cases hj
              | cons b r => rw [List.getLast?_cons_cons]; simp only [hs, List.tail_cons]; congr
            · simp only [hb, hs, List.tail_cons]
              show k.oldt = _
              rw [Option.some.inj hi]
              cases rest with
              | nil => simp
              | cons b r =>
                rw [List.getLast?_cons_cons]
                rw [if_neg (show ¬ (b :: r).getLast? = some i from fun h => (List.nodup_cons.1 g3).1 (List.mem_of_getLast? h))]
                exact (if_neg (by simp)).symm
        | check =>
          cases hu
          simp only [Keyboard.step] at h
          split at h <;> cases h
          rename_i hq; split at hq <;> cases hq
          exact ⟨by simp [g1], g2, g3, fun j hj => (found_set s i k _ _ _ hk (by rfl) j).trans (g4 j hj), g5, g6⟩
        | ready =>
          cases hu
          simp only [Keyboard.step] at h
          split at h <;> cases h
          rename_i hq
          split at hq
          · split at hq
            · cases hq
              exact ⟨by simp [g1], g2, g3, fun j hj => (found_set s i k _ _ _ hk (by rfl) j).trans (g4 j hj), g5, g6⟩
            · split at hq <;> cases hq
              exact ⟨by simp [g1], g2, g3, fun j hj => (found_set s i k _ _ _ hk (by rfl) j).trans (g4 j hj), g5, g6⟩
          · cases hq
        | getc =>
          cases hu
          simp only [Keyboard.step] at h
          split at h <;> cases h
          rename_i hq
          split at hq
          · split at hq
            · split at hq <;> cases hq
              exact ⟨by simp [g1], g2, g3, fun j hj => (found_set s i k _ _ _ hk (by rfl) j).trans (g4 j hj), g5, g6⟩
            · cases hq
              exact ⟨by simp [g1], g2, g3, fun j hj => (found_set s i k _ _ _ hk (by rfl) j).trans (g4 j hj), g5, g6⟩
          · cases hq
        | post =>
          cases hu
          simp only [Keyboard.step] at h
          split at h <;> cases h
          rename_i hq
          split at hq <;> cases hq
          exact ⟨by simp [g1], g2, g3, fun j hj => (found_set s i k _ _ _ hk (by rfl) j).trans (g4 j hj), g5, g6⟩
        | _ => cases ho
    · cases h

theorem upright_steps {p : Platform} {manual : α → α} (hid : ∀ a, manual (manual a) = manual a) {tty : α} (es : List (Keyboards.Ev α)) : ∀ {u u' : Use} {s s' : Keyboards.St α}, Upright manual tty u s → Use.run es u = some u' →
    Keyboards.steps p manual s es = some s' → Upright manual tty u' s' := by
  induction es with
  | nil => intro u u' s s' g hu h; cases hu; cases h; exact g
  | cons e es ih =>
    intro u u' s s' g hu h
    simp only [Use.run] at hu
    simp only [Keyboards.steps] at h
    split at hu
    · cases hu
    · rename_i u1 h1
      split at h
      · cases h
      · rename_i s1 h2
        exact ih (upright_step hid g h1 h2) hu h

/-- **C102** (partial) In orderly use - the sessions are destroyed in the reverse order of their construction, and none is constructed in a command of another one - the terminal has its original mode when all of them have been
    destroyed, and while the first of them executes a command. Missing: other orders (`C102_order_refuted`, `C102_inside_refuted`), and the commands of the other sessions (`C102_second_refuted`). -/
theorem C102_restored_partial (p : Platform) (manual : α → α) (hid : ∀ a, manual (manual a) = manual a) (tty : α) (es : List (Keyboards.Ev α)) (s : Keyboards.St α) (u : Use) (hu : Use.run es ⟨0, [], none⟩ = some u)
    (h : Keyboards.steps p manual (Keyboards.init tty) es = some s) : (u.stack = [] → s.tty = tty) ∧ (∀ i, u.busy = some i → u.stack.getLast? = some i → s.tty = tty) := by
  have g0 : Upright manual tty ⟨0, [], none⟩ (Keyboards.init tty) := ⟨rfl, (fun i h => by cases h), List.nodup_nil, (fun i h => by cases h), rfl, (fun i h => by cases h)⟩
  obtain ⟨_, _, _, _, g5, g6⟩ := upright_steps hid es g0 hu h
  refine ⟨fun hs => ?_, fun i hb hl => by rw [g5, hb]; simp only [hl, if_true]⟩
  cases hb : u.busy with
  | some i => have := g6 i hb; rw [hs] at this; cases this
  | none => rw [g5, hb]; simp only [hs, if_true]

/-! ### A single keyboard -/

/-- What happens to the only keyboard. -/
def lone : Keyboard.Ev α → Keyboards.Ev α
  | .arrive b => .arrive b
  | .setTty a => .setTty a
  | e => .kb 0 e

/-- Events of the part of `Model/Keyboard` that is used here: no signals, and the standard input is neither closed nor read by others. -/
def undisturbed : Keyboard.Ev α → Prop
  | .signal | .close | .taken => False
  | _ => True

theorem lone_step (p : Platform) (manual : α → α) (s : Keyboards.St α) (k : Kb α) (e : Keyboard.Ev α) (he : undisturbed e) (hk : s.kbs = [k]) (hc : k.closed = false) :
    (∀ K, Keyboard.step p manual (Keyboards.seen s k) e = some K → ∃ s' k', Keyboards.step p manual s (lone e) = some s' ∧ s'.kbs = [k'] ∧ Keyboards.seen s' k' = K ∧ k'.closed = false) ∧
    (Keyboard.step p manual (Keyboards.seen s k) e = none → Keyboards.step p manual s (lone e) = none) := by
  have kb : ∀ e, Keyboards.own e = true → lone e = .kb 0 e → (∀ K, Keyboard.step p manual (Keyboards.seen s k) e = some K → K.closed = false) →
      (∀ K, Keyboard.step p manual (Keyboards.seen s k) e = some K → ∃ s' k', Keyboards.step p manual s (lone e) = some s' ∧ s'.kbs = [k'] ∧ Keyboards.seen s' k' = K ∧ k'.closed = false) ∧
      (Keyboard.step p manual (Keyboards.seen s k) e = none → Keyboards.step p manual s (lone e) = none) := by
    intro e ho hs hcl
    rw [hs]
    refine ⟨fun K hK => ⟨⟨s.kbs.set 0 K, K.input, K.tty⟩, K, ?_, by simp [hk], rfl, hcl K hK⟩, fun hN => ?_⟩
    · simp [Keyboards.step, ho, hk, hK]
    · simp [Keyboards.step, ho, hk, hN]
  have hc' : (Keyboards.seen s k).closed = false := hc
  cases e with
  | check =>
    refine kb _ rfl rfl (fun K hK => ?_)
    simp only [Keyboard.step] at hK
    split at hK <;> cases hK
    exact hc
  | ready =>
    refine kb _ rfl rfl (fun K hK => ?_)
    simp only [Keyboard.step] at hK
    repeat' split at hK
    all_goals cases hK
    all_goals exact hc
  | getc =>
    refine kb _ rfl rfl (fun K hK => ?_)
    simp only [Keyboard.step] at hK
    repeat' split at hK
    all_goals cases hK
    all_goals exact hc
  | post =>
    refine kb _ rfl rfl (fun K hK => ?_)
    simp only [Keyboard.step] at hK
    repeat' split at hK
    all_goals cases hK
    all_goals exact hc
  | activate => exact kb _ rfl rfl (fun K hK => by cases hK; exact hc)
  | deactivate => exact kb _ rfl rfl (fun K hK => by cases hK; exact hc)
  | stop => exact kb _ rfl rfl (fun K hK => by cases hK; exact hc)
  | arrive b =>
    refine ⟨fun K hK => ?_, fun hN => ?_⟩
    · simp only [Keyboard.step, hc'] at hK
      cases hK
      exact ⟨_, k, rfl, hk, by simp [Keyboards.seen, hc], hc⟩
    · simp only [Keyboard.step, hc'] at hN
      cases hN
  | setTty a =>
    refine ⟨fun K hK => ?_, fun hN => ?_⟩
    · cases hK
      exact ⟨_, k, rfl, hk, rfl, hc⟩
    · cases hN
  | signal => exact he.elim
  | close => exact he.elim
  | taken => exact he.elim

theorem lone_steps (p : Platform) (manual : α → α) (es : List (Keyboard.Ev α)) : ∀ (s : Keyboards.St α) (k : Kb α), (∀ e ∈ es, undisturbed e) → s.kbs = [k] → k.closed = false →
    (Keyboards.steps p manual s (es.map lone)).map (fun s => s.kbs.map (Keyboards.seen s)) = (Keyboard.steps p manual (Keyboards.seen s k) es).map (fun k => [k]) := by
  induction es with
  | nil => intro s k _ hk _; simp [Keyboards.steps, Keyboard.steps, hk]
  | cons e es ih =>
    intro s k he hk hc
    obtain ⟨h1, h2⟩ := lone_step p manual s k e (he e List.mem_cons_self) hk hc
    simp only [List.map_cons, Keyboards.steps, Keyboard.steps]
    cases hK : Keyboard.step p manual (Keyboards.seen s k) e with
    | none => rw [h2 hK]; rfl
    | some K =>
      obtain ⟨s', k', hs', hk', hse, hc'⟩ := h1 K hK
      simp only [hs', ← hse]
      exact ih s' k' (fun e' h' => he e' (List.mem_cons_of_mem _ h')) hk' hc'

/-- **C102** A program with a single local session is the case of the properties of one keyboard (C43 to C45, C65 to C67): the same events are possible, and lead to the same state. -/
theorem C102_alone (p : Platform) (manual : α → α) (tty : α) (es : List (Keyboard.Ev α)) (he : ∀ e ∈ es, undisturbed e) :
    (Keyboards.steps p manual (Keyboards.init tty) (.new :: es.map lone)).map (fun s => s.kbs.map (Keyboards.seen s)) = (Keyboard.steps p manual (Keyboard.init manual tty) es).map (fun k => [k]) :=
  lone_steps p manual es ⟨[Keyboard.init manual tty], [], manual tty⟩ (Keyboard.init manual tty) he rfl rfl

/-! ### Concrete cases -/

/-- The terminal echoes (`true`) at first. -/
def mode0 (es : List (Keyboards.Ev Bool)) : Option (Bool × List (List Key)) := (Keyboards.steps plat (fun _ => false) (Keyboards.init true) es).map (fun s => (s.tty, s.kbs.map (·.posted)))

/-- Two sessions; `a` and `b` are typed, and read by different ones; a command of the first one; then they are destroyed in the reverse order. -/
def twoUsers : List (Keyboards.Ev Bool) := [.new, .new, .kb 0 .check, .kb 1 .check, .arrive b%'a', .kb 1 .ready, .kb 1 .getc, .arrive b%'b', .kb 0 .ready, .kb 0 .getc, .kb 1 .post, .kb 0 .post, .kb 0 .deactivate]

example : mode0 twoUsers = some (true, [[.ascii b%'b'], [.ascii b%'a']]) := by decide +kernel
example : mode0 (twoUsers ++ [.kb 0 .activate, .kb 1 .stop]) = some (false, [[.ascii b%'b'], [.ascii b%'a']]) := by decide +kernel
example : mode0 (twoUsers ++ [.kb 0 .activate, .kb 1 .stop, .kb 0 .stop]) = some (true, [[.ascii b%'b'], [.ascii b%'a']]) := by decide +kernel
example : (Use.run (twoUsers ++ [.kb 0 .activate, .kb 1 .stop, .kb 0 .stop]) ⟨0, [], none⟩).map (fun u => (u.n, u.stack, u.busy)) = some (2, [], none) := by decide +kernel
example : got plat (fun _ : Bool => false) twoUsers (Keyboards.init true) = [(1, b%'a'), (0, b%'b')] ∧ struckAll twoUsers = bs!"ab" := by decide +kernel
example : ∃ s, Keyboards.steps plat (fun _ : Bool => false) (Keyboards.init true) twoUsers = some s ∧ s.input = [] ∧ ∀ k ∈ s.kbs, k.reader = .wait := by
  refine ⟨_, rfl, rfl, ?_⟩
  intro k hk
  rcases List.mem_cons.1 hk with rfl | hk
  · rfl
  · cases List.mem_singleton.1 hk; rfl

/-- One keyboard, with something typed, a command, and other code that changes the mode. -/
example : (∀ e ∈ ([.check, .arrive b%'a', .ready, .getc, .post, .deactivate, .setTty true, .activate, .stop] : List (Keyboard.Ev Bool)), undisturbed e) ∧
    (Keyboard.steps plat (fun _ => false) (Keyboard.init (fun _ => false) true) [.check, .arrive b%'a', .ready, .getc, .post, .deactivate, .setTty true, .activate, .stop]).map (fun k => (k.posted, k.tty)) = some ([.ascii b%'a'], true) := by
  refine ⟨?_, by decide +kernel⟩
  intro e h
  simp only [List.mem_cons, List.not_mem_nil, or_false] at h
  rcases h with rfl | rfl | rfl | rfl | rfl | rfl | rfl | rfl | rfl <;> trivial

/-- **C102 refuted** The session constructed first is destroyed first: when both have been destroyed, the terminal does not echo. -/
theorem C102_order_refuted (p : Platform) (manual : α → α) (tty : α) : ∃ s, Keyboards.steps p manual (Keyboards.init tty) [.new, .new, .kb 0 .stop, .kb 1 .stop] = some s ∧ s.tty = manual tty := ⟨_, rfl, rfl⟩

/-- **C102 refuted** A command of the first session constructs the second one, which is destroyed later, before the first one: the terminal does not echo. -/
theorem C102_inside_refuted (p : Platform) (manual : α → α) (tty : α) :
    ∃ s, Keyboards.steps p manual (Keyboards.init tty) [.new, .kb 0 .deactivate, .new, .kb 0 .activate, .kb 1 .stop, .kb 0 .stop] = some s ∧ s.tty = manual tty := ⟨_, rfl, rfl⟩

/-- **C102 refuted** While a command of the second session is executed, the terminal does not echo. -/
theorem C102_second_refuted (p : Platform) (manual : α → α) (tty : α) : ∃ s, Keyboards.steps p manual (Keyboards.init tty) [.new, .new, .kb 1 .deactivate] = some s ∧ s.tty = manual tty := ⟨_, rfl, rfl⟩

/-- **C102 refuted** The key Up is pressed, and its bytes `ESC [ A` are read by both keyboards: none posts `up`; one posts an ignored key, the other the letter `[`. -/
theorem C102_torn_refuted (p : Platform) (manual : α → α) (tty : α) : ∃ s, Keyboards.steps p manual (Keyboards.init tty)
      [.new, .new, .kb 0 .check, .kb 1 .check, .arrive 27, .arrive 91, .arrive 65, .kb 0 .ready, .kb 1 .ready, .kb 0 .getc, .kb 1 .getc, .kb 0 .getc, .kb 0 .post, .kb 1 .post] = some s ∧
    s.kbs.map (·.posted) = [[.ignored], [.ascii 91]] := by
  have h1 : Keyboard.next p .first 27 = .inl .esc := by unfold Keyboard.next; simp
  have h2 : Keyboard.next p .first 91 = .inr (.ascii 91) := by unfold Keyboard.next; simp
  have h3 : Keyboard.next p .esc 65 = .inr .ignored := rfl
  simp [Keyboards.steps, Keyboards.step, Keyboards.own, Keyboards.seen, Keyboards.init, Keyboard.init, Keyboard.step, Keyboard.step.after, h1, h2, h3]

/-- **C102 refuted** A key is pressed and both keyboards see it; one of them reads it. The other one waits in `read`, so that its destruction waits for another key: nothing is possible any more. -/
theorem C102_hangs_refuted (p : Platform) (manual : α → α) (tty : α) : ∃ s, Keyboards.steps p manual (Keyboards.init tty)
      [.new, .new, .kb 0 .check, .kb 1 .check, .arrive b%'a', .kb 0 .ready, .kb 1 .ready, .kb 0 .getc, .kb 0 .post, .kb 1 .stop] = some s ∧
    ∃ k, s.kbs[1]? = some k ∧ k.reader = .get .first ∧ k.stopped = true ∧ ∀ e, e = .check ∨ e = .ready ∨ e = .getc ∨ e = .post → Keyboards.step p manual s (.kb 1 e) = none := by
  have h1 : Keyboard.next p .first 97 = .inr (.ascii 97) := by unfold Keyboard.next; simp
  refine ⟨⟨[⟨.wait, true, false, [], false, [.ascii 97], 1, manual (manual tty), tty⟩, ⟨.get .first, true, true, [], false, [], 0, manual tty, manual tty⟩], [], manual tty⟩, ?_, _, rfl, rfl, rfl, ?_⟩
  · simp [Keyboards.steps, Keyboards.step, Keyboards.own, Keyboards.seen, Keyboards.init, Keyboard.init, Keyboard.step, Keyboard.step.after, h1]
  · intro e he
    rcases he with rfl | rfl | rfl | rfl <;> rfl

end Verif.Props
