import Verif.Props.Terminal
import Verif.Props.Keyboard
import Verif.Spec.Utf8

set_option linter.unusedSimpArgs false

/-!
# Property C93: editing text in UTF-8

The keyboard delivers the bytes of a character one by one, and the line editor works on bytes.
-/

namespace Verif.Props
open Verif.Terminal Verif.Spec

/-- The key that an operation is done with: the bytes of the character, or one press of the key. -/
def pressed1 : CharOp → List Key
  | .type c => c.map .ascii
  | .backspace => [.backspace]
  | .canc => [.canc]
  | .left => [.left]
  | .right => [.right]
  | .home => [.home]
  | .end => [.end]
  | .enter => [.ret]

/-- The same, where a key that erases or passes a character is pressed once for each of its bytes. -/
def pressedN (z : CharZip) : CharOp → List Key
  | .backspace => List.replicate (z.before.head?.elim 1 List.length) .backspace
  | .canc => List.replicate (z.after.head?.elim 1 List.length) .canc
  | .left => List.replicate (z.before.head?.elim 1 List.length) .left
  | .right => List.replicate (z.after.head?.elim 1 List.length) .right
  | o => pressed1 o

def pressesN : List CharOp → CharZip → List Key
  | [], _ => []
  | o :: os, z => pressedN z o ++ pressesN os (z.op o)

/-- The lines among the requests of the editor. -/
def entered (ys : List Symbol) : List Str := ys.filterMap (fun y => match y with | .command s => some s | _ => none)

/-- The bytes of a buffer of characters. -/
def bytesOf (z : CharZip) : Zip := ⟨(z.before.map List.reverse).flatten, z.after.flatten⟩

theorem bytesOf_text (z : CharZip) : (bytesOf z).text = z.text := by
  simp [bytesOf, Zip.text, CharZip.text, CharZip.chars, List.reverse_flatten, List.map_map, Function.comp_def]

theorem bytesOf_all (l : List Str) : (l.flatten).reverse = (l.reverse.map List.reverse).flatten := by
  simp [List.reverse_flatten, List.map_reverse]

theorem zipRun_append (a b : List EdOp) : ∀ z, zipRun (a ++ b) z = ((zipRun b (zipRun a z).1).1, (zipRun a z).2 ++ (zipRun b (zipRun a z).1).2) := by
  induction a with
  | nil => intro z; rfl
  | cons o a ih =>
    intro z
    cases o with
    | key k => simp [zipRun, ih]
    | set s => simp [zipRun, ih]

/-- Keys that move and erase ask for nothing. -/
theorem zipRun_rep (k : Key) (hk : ∀ z : Zip, z.request k = .nothing) (n : Nat) : ∀ z, entered (zipRun ((List.replicate n k).map .key) z).2 = [] := by
  induction n with
  | zero => intro z; rfl
  | succ n ih => intro z; simp only [List.replicate_succ, List.map_cons, zipRun, entered, hk, List.filterMap_cons]; exact ih _

theorem zip_backspaces (c b a : Str) : (zipRun ((List.replicate c.length Key.backspace).map .key) ⟨c ++ b, a⟩).1 = ⟨b, a⟩ := by
  induction c with
  | nil => rfl
  | cons x c ih => exact ih

theorem zip_cancs (c b a : Str) : (zipRun ((List.replicate c.length Key.canc).map .key) ⟨b, c ++ a⟩).1 = ⟨b, a⟩ := by
  induction c with
  | nil => rfl
  | cons x c ih => exact ih

theorem zip_lefts (c b : Str) : ∀ a, (zipRun ((List.replicate c.length Key.left).map .key) ⟨c ++ b, a⟩).1 = ⟨b, c.reverse ++ a⟩ := by
  induction c with
  | nil => intro a; rfl
  | cons x c ih => intro a; simp only [List.length_cons, List.replicate_succ, List.map_cons, zipRun, Zip.key, Zip.moveLeft, List.cons_append, ih]; simp

theorem zip_rights (c a : Str) : ∀ b, (zipRun ((List.replicate c.length Key.right).map .key) ⟨b, c ++ a⟩).1 = ⟨c.reverse ++ b, a⟩ := by
  induction c with
  | nil => intro b; rfl
  | cons x c ih => intro b; simp only [List.length_cons, List.replicate_succ, List.map_cons, zipRun, Zip.key, Zip.moveRight, List.cons_append, ih]; simp

theorem zip_type (c : Str) (ht : b%'\t' ∉ c) : ∀ z : Zip, (zipRun ((c.map Key.ascii).map .key) z).1 = ⟨c.reverse ++ z.before, z.after⟩ ∧ entered (zipRun ((c.map Key.ascii).map .key) z).2 = [] := by
  induction c with
  | nil => intro z; exact ⟨rfl, rfl⟩
  | cons x c ih =>
    intro z
    have hx : x ≠ b%'\t' := fun h => ht (by simp [h])
    obtain ⟨h1, h2⟩ := ih (fun h => ht (by simp [h])) (z.key (.ascii x))
    constructor
    · simp only [List.map_cons, zipRun]; rw [h1]; simp [Zip.key, hx]
    · simp only [List.map_cons, zipRun, Zip.request, hx, if_false, entered, List.filterMap_cons]; exact h2

/-- One operation. -/
theorem pressedN_zip (z : CharZip) (o : CharOp) (ht : o.typed) :
    (zipRun ((pressedN z o).map .key) (bytesOf z)).1 = bytesOf (z.op o) ∧ entered (zipRun ((pressedN z o).map .key) (bytesOf z)).2 = (if o = .enter then [z.text] else []) := by
  obtain ⟨b, a⟩ := z
  cases o with
  | type c =>
    obtain ⟨h1, h2⟩ := zip_type c ht.2 (bytesOf ⟨b, a⟩)
    exact ⟨by simp only [pressedN, pressed1, h1]; simp [bytesOf, CharZip.op], by simp only [pressedN, pressed1, h2]; simp⟩
  | backspace =>
    refine ⟨?_, zipRun_rep _ (fun _ => rfl) _ _⟩
    cases b with
    | nil => rfl
    | cons c b => simpa [pressedN, bytesOf, CharZip.op] using zip_backspaces c.reverse (b.map List.reverse).flatten a.flatten
  | canc =>
    refine ⟨?_, zipRun_rep _ (fun _ => rfl) _ _⟩
    cases a with
    | nil => rfl
    | cons c a => simpa [pressedN, bytesOf, CharZip.op] using zip_cancs c (b.map List.reverse).flatten a.flatten
  | left =>
    refine ⟨?_, zipRun_rep _ (fun _ => rfl) _ _⟩
    cases b with
    | nil => rfl
    | cons c b => simpa [pressedN, bytesOf, CharZip.op] using zip_lefts c.reverse (b.map List.reverse).flatten a.flatten
  | right =>
    refine ⟨?_, zipRun_rep _ (fun _ => rfl) _ _⟩
    cases a with
    | nil => rfl
    | cons c a => simpa [pressedN, bytesOf, CharZip.op] using zip_rights c a.flatten (b.map List.reverse).flatten
  | home =>
    refine ⟨?_, rfl⟩
    simp only [pressedN, pressed1, List.map_cons, List.map_nil, zipRun, Zip.key, CharZip.op, bytesOf_text]
    simp [bytesOf, CharZip.text, CharZip.chars]
  | «end» =>
    refine ⟨?_, rfl⟩
    simp only [pressedN, pressed1, List.map_cons, List.map_nil, zipRun, Zip.key, CharZip.op, bytesOf_text]
    simp [bytesOf, CharZip.text, CharZip.chars, bytesOf_all]
  | enter =>
    refine ⟨rfl, ?_⟩
    simp [pressedN, pressed1, zipRun, Zip.request, entered, bytesOf_text]

theorem entered_append (a b : List Symbol) : entered (a ++ b) = entered a ++ entered b := List.filterMap_append ..

theorem pressesN_zip (os : List CharOp) : ∀ (z : CharZip), (∀ o ∈ os, o.typed) →
    (zipRun ((pressesN os z).map .key) (bytesOf z)).1 = bytesOf (CharZip.run os z).1 ∧ entered (zipRun ((pressesN os z).map .key) (bytesOf z)).2 = (CharZip.run os z).2 := by
  induction os with
  | nil => intro z _; exact ⟨rfl, rfl⟩
  | cons o os ih =>
    intro z ht
    obtain ⟨h1, h2⟩ := pressedN_zip z o (ht o (by simp))
    obtain ⟨h3, h4⟩ := ih (z.op o) (fun o' h => ht o' (by simp [h]))
    simp only [pressesN, List.map_append, zipRun_append, h1, h3, entered_append, h2, h4, CharZip.run]
    exact ⟨trivial, trivial⟩

/-- **C93** (part) For all characters and operations: if every key that erases or passes a character is pressed as often as the character has bytes, the editor works as a buffer of characters. Missing:
    one press is not enough (refuted below). -/
theorem C93_bytewise_partial (os : List CharOp) (ht : ∀ o ∈ os, o.typed) (z : CharZip) (t : Term) (io : Io) (h1 : t.line = z.text) (h2 : t.pos = (z.before.flatten).length) :
    ∃ t' io' ys, edRun ((pressesN os z).map .key) t io = .ok (t', io', ys) ∧ t'.line = (CharZip.run os z).1.text ∧ t'.pos = ((CharZip.run os z).1.before.flatten).length ∧
      entered ys = (CharZip.run os z).2 := by
  have hlen : ∀ l : List Str, ((l.map List.reverse).flatten).length = l.flatten.length := by
    intro l; induction l with
    | nil => rfl
    | cons c l ih => simp [ih]
  obtain ⟨t', io', h, h3, h4⟩ := C40_editor_is_two_sided_buffer ((pressesN os z).map .key) t (bytesOf z) io (by rw [bytesOf_text, h1]) (by simp only [bytesOf, hlen, h2])
  obtain ⟨h5, h6⟩ := pressesN_zip os z ht
  exact ⟨t', io', _, h, by rw [h3, h5, bytesOf_text], by rw [h4, h5]; simp only [bytesOf, hlen], h6⟩

/-- Keys that erase or pass a character meet single-byte characters only. -/
def Narrow : List CharOp → CharZip → Prop
  | [], _ => True
  | o :: os, z =>
    (match o with
    | .backspace | .left => ∀ c ∈ z.before.head?, c.length = 1
    | .canc | .right => ∀ c ∈ z.after.head?, c.length = 1
    | _ => True) ∧ Narrow os (z.op o)

theorem narrow_presses (os : List CharOp) : ∀ (z : CharZip), Narrow os z → pressesN os z = os.flatMap pressed1 := by
  induction os with
  | nil => intro z _; rfl
  | cons o os ih =>
    intro z h
    simp only [pressesN, ih _ h.2, List.flatMap_cons]
    congr 1
    obtain ⟨b, a⟩ := z
    have h := h.1
    cases o with
    | backspace => cases b with
      | nil => rfl
      | cons c b => simp [pressedN, pressed1, h c (by simp)]
    | left => cases b with
      | nil => rfl
      | cons c b => simp [pressedN, pressed1, h c (by simp)]
    | canc => cases a with
      | nil => rfl
      | cons c a => simp [pressedN, pressed1, h c (by simp)]
    | right => cases a with
      | nil => rfl
      | cons c a => simp [pressedN, pressed1, h c (by simp)]
    | _ => rfl

/-- **C93** (part) Characters of any length can be typed, and the line entered; the keys that erase or pass a character do so if it has a single byte. Then the editor works as a buffer of characters. Missing:
    erasing and passing longer characters (refuted below). -/
theorem C93_narrow_partial (os : List CharOp) (ht : ∀ o ∈ os, o.typed) (hn : Narrow os ⟨[], []⟩) (io : Io) :
    ∃ t' io' ys, edRun ((os.flatMap pressed1).map .key) ⟨[], 0⟩ io = .ok (t', io', ys) ∧ t'.line = (CharZip.run os ⟨[], []⟩).1.text ∧
      t'.pos = ((CharZip.run os ⟨[], []⟩).1.before.flatten).length ∧ entered ys = (CharZip.run os ⟨[], []⟩).2 := by
  rw [← narrow_presses os _ hn]
  exact C93_bytewise_partial os ht ⟨[], []⟩ ⟨[], 0⟩ io rfl rfl

theorem op_ok (z : CharZip) (o : CharOp) (h : z.ok) (ho : ∀ c, o = .type c → char8 c = true) : (z.op o).ok := by
  obtain ⟨b, a⟩ := z
  obtain ⟨h1, h2⟩ := h
  simp only at h1 h2
  cases o with
  | type c => exact ⟨by simpa [CharZip.op] using ⟨ho c rfl, h1⟩, h2⟩
  | backspace => exact ⟨fun c hc => h1 c (List.mem_of_mem_tail hc), h2⟩
  | canc => exact ⟨h1, fun c hc => h2 c (List.mem_of_mem_tail hc)⟩
  | left => cases b with
    | nil => exact ⟨h1, h2⟩
    | cons c b => exact ⟨fun d hd => h1 d (by simp [CharZip.op] at hd ⊢; exact .inr hd), by simpa [CharZip.op] using ⟨h1 c (by simp), h2⟩⟩
  | right => cases a with
    | nil => exact ⟨h1, h2⟩
    | cons c a => exact ⟨by simpa [CharZip.op] using ⟨h2 c (by simp), h1⟩, fun d hd => h2 d (by simp [CharZip.op] at hd ⊢; exact .inr hd)⟩
  | home => exact ⟨by simp [CharZip.op], by simp [CharZip.op, CharZip.chars]; intro c h; exact h.elim (h1 c) (h2 c)⟩
  | «end» => exact ⟨by simp [CharZip.op, CharZip.chars]; intro c h; exact h.elim (h2 c) (h1 c), by simp [CharZip.op]⟩
  | enter => exact ⟨by simp [CharZip.op], by simp [CharZip.op]⟩

theorem text_utf8 (z : CharZip) (h : z.ok) : Utf8 z.text :=
  ⟨z.chars, by simp only [CharZip.chars, List.mem_append, List.mem_reverse]; intro c hc; exact hc.elim (h.1 c) (h.2 c), rfl⟩

theorem run_utf8 (os : List CharOp) : ∀ (z : CharZip), z.ok → (∀ c, .type c ∈ os → char8 c = true) → (CharZip.run os z).1.ok ∧ ∀ l ∈ (CharZip.run os z).2, Utf8 l := by
  induction os with
  | nil => intro z h _; exact ⟨h, by simp [CharZip.run]⟩
  | cons o os ih =>
    intro z h ho
    obtain ⟨h1, h2⟩ := ih (z.op o) (op_ok z o h (fun c hc => ho c (by simp [hc]))) (fun c hc => ho c (by simp [hc]))
    refine ⟨h1, ?_⟩
    intro l hl
    simp only [CharZip.run, List.mem_append] at hl
    rcases hl with hl | hl
    · split at hl
      · simp at hl; subst hl; exact text_utf8 z h
      · simp at hl
    · exact h2 l hl

/-- **C93** (part) In that case the edited line and all the lines entered are well formed. -/
theorem C93_well_formed_partial (os : List CharOp) (ht : ∀ o ∈ os, o.typed) (hc : ∀ c, .type c ∈ os → char8 c = true) (hn : Narrow os ⟨[], []⟩) (io : Io) :
    ∃ t' io' ys, edRun ((os.flatMap pressed1).map .key) ⟨[], 0⟩ io = .ok (t', io', ys) ∧ Utf8 t'.line ∧ ∀ l ∈ entered ys, Utf8 l := by
  obtain ⟨t', io', ys, h, h1, _, h3⟩ := C93_narrow_partial os ht hn io
  obtain ⟨h4, h5⟩ := run_utf8 os ⟨[], []⟩ ⟨by simp, by simp⟩ hc
  exact ⟨t', io', ys, h, h1 ▸ text_utf8 _ h4, h3 ▸ h5⟩

/-! ### Counting -/

/-- How many continuing bytes the text needs, and how many it has. -/
def needed (s : Str) : Nat := (s.map (fun b => (following b).getD 0)).sum
def conts (s : Str) : Nat := s.countP isCont

theorem cont_needs (b : Byte) (h : isCont b = true) : following b = none := by
  simp only [isCont, Bool.and_eq_true, decide_eq_true_eq] at h
  simp only [following]
  repeat (rw [if_neg (by omega)])

theorem lead_not_cont (b : Byte) (n : Nat) (h : following b = some n) : isCont b = false := by
  cases hc : isCont b
  · rfl
  · rw [cont_needs b hc] at h; cases h

theorem conts_needed (s : Str) (h : s.all isCont = true) : needed s = 0 ∧ conts s = s.length := by
  induction s with
  | nil => exact ⟨rfl, rfl⟩
  | cons b s ih =>
    simp only [List.all_cons, Bool.and_eq_true] at h
    obtain ⟨h1, h2⟩ := ih h.2
    constructor
    · simp only [needed, List.map_cons, List.sum_cons, cont_needs b h.1] at h1 ⊢; simpa using h1
    · simp only [conts, List.countP_cons, h.1] at h2 ⊢; simp [h2]

theorem char8_balanced (c : Str) (h : char8 c = true) : needed c = conts c := by
  cases c with
  | nil => rfl
  | cons b cs =>
    simp only [char8, Bool.and_eq_true, beq_iff_eq] at h
    obtain ⟨⟨h1, h2⟩, _⟩ := h
    obtain ⟨h3, h4⟩ := conts_needed cs h2
    simp only [needed, conts, List.map_cons, List.sum_cons, h1, Option.getD_some, List.countP_cons, lead_not_cont b _ h1] at h3 h4 ⊢
    rw [h3]; simpa using h4.symm

theorem needed_append (a b : Str) : needed (a ++ b) = needed a + needed b := by simp [needed]
theorem conts_append (a b : Str) : conts (a ++ b) = conts a + conts b := by simp [conts]

theorem utf8_balanced (s : Str) (h : Utf8 s) : needed s = conts s := by
  obtain ⟨cs, hc, rfl⟩ := h
  induction cs with
  | nil => rfl
  | cons c cs ih =>
    rw [List.flatten_cons, needed_append, conts_append, char8_balanced c (hc c (by simp)), ih (fun d hd => hc d (by simp [hd]))]

theorem flatten_balanced (cs : List Str) (h : ∀ c ∈ cs, char8 c = true) : needed cs.flatten = conts cs.flatten := utf8_balanced _ ⟨cs, h, rfl⟩

theorem char8_last (c : Str) (h : char8 c = true) (hl : 1 < c.length) : ∃ d x, c = d ++ [x] ∧ isCont x = true := by
  cases c with
  | nil => simp at hl
  | cons b cs =>
    simp only [char8, Bool.and_eq_true] at h
    have hne : cs ≠ [] := by rintro rfl; simp at hl
    exact ⟨b :: cs.dropLast, cs.getLast hne, by rw [List.cons_append, List.dropLast_concat_getLast], List.all_eq_true.mp h.1.2 _ (List.getLast_mem hne)⟩

theorem char8_first (c : Str) (h : char8 c = true) (hl : 1 < c.length) : ∃ b d n, c = b :: d ∧ following b = some (n + 1) := by
  cases c with
  | nil => simp at hl
  | cons b cs =>
    simp only [char8, Bool.and_eq_true, beq_iff_eq] at h
    cases cs with
    | nil => simp at hl
    | cons x xs => exact ⟨b, _, xs.length, rfl, by simpa using h.1.1⟩

/-- **C93** Refuted: whatever well-formed text is being edited, one press of Backspace after a character of several bytes leaves a line that is not well formed. -/
theorem C93_backspace_refuted (z : CharZip) (hz : z.ok) (c : Str) (hc : z.before.head? = some c) (hl : 1 < c.length) (t : Term) (io : Io) (h1 : t.line = z.text)
    (h2 : t.pos = (bytesOf z).before.length) : ∃ t' io', keypressed t io .backspace = .ok (t', io', .nothing) ∧ ¬ Utf8 t'.line := by
  obtain ⟨io', hk⟩ := keypressed_rep t (bytesOf z) io .backspace ⟨by rw [bytesOf_text, h1], h2⟩
  refine ⟨_, io', hk, ?_⟩
  obtain ⟨b, a⟩ := z
  cases b with
  | nil => simp at hc
  | cons d b =>
    simp only [List.head?_cons, Option.some.injEq] at hc
    subst hc
    obtain ⟨e, x, rfl, hx⟩ := char8_last d (hz.1 d (by simp)) hl
    have e1 : ((bytesOf ⟨(e ++ [x]) :: b, a⟩).key .backspace).text = b.reverse.flatten ++ e ++ a.flatten := by
      simp [bytesOf, Zip.key, Zip.text, List.reverse_flatten, List.map_map, Function.comp_def]
    intro hu
    have hb := utf8_balanced _ hu
    simp only [e1, needed_append, conts_append] at hb
    have h3 := flatten_balanced b.reverse (fun c hc => hz.1 c (by simp at hc ⊢; exact .inr hc))
    have h4 := flatten_balanced a hz.2
    have h5 := char8_balanced _ (hz.1 (e ++ [x]) (by simp))
    rw [needed_append, conts_append] at h5
    have h6 : needed [x] = 0 := by simp [needed, cont_needs x hx]
    have h7 : conts [x] = 1 := by simp [conts, hx]
    omega

/-- **C93** Refuted: the same for Delete before such a character. -/
theorem C93_delete_refuted (z : CharZip) (hz : z.ok) (c : Str) (hc : z.after.head? = some c) (hl : 1 < c.length) (t : Term) (io : Io) (h1 : t.line = z.text)
    (h2 : t.pos = (bytesOf z).before.length) : ∃ t' io', keypressed t io .canc = .ok (t', io', .nothing) ∧ ¬ Utf8 t'.line := by
  obtain ⟨io', hk⟩ := keypressed_rep t (bytesOf z) io .canc ⟨by rw [bytesOf_text, h1], h2⟩
  refine ⟨_, io', hk, ?_⟩
  obtain ⟨b, a⟩ := z
  cases a with
  | nil => simp at hc
  | cons d a =>
    simp only [List.head?_cons, Option.some.injEq] at hc
    subst hc
    obtain ⟨x, e, n, rfl, hx⟩ := char8_first d (hz.2 d (by simp)) hl
    have e1 : ((bytesOf ⟨b, (x :: e) :: a⟩).key .canc).text = b.reverse.flatten ++ e ++ a.flatten := by
      simp [bytesOf, Zip.key, Zip.text, List.reverse_flatten, List.map_map, Function.comp_def]
    intro hu
    have hb := utf8_balanced _ hu
    simp only [e1, needed_append, conts_append] at hb
    have h3 := flatten_balanced b.reverse (fun c hc => hz.1 c (by simpa using hc))
    have h4 := flatten_balanced a (fun c hc => hz.2 c (by simp [hc]))
    have h5 := char8_balanced _ (hz.2 (x :: e) (by simp))
    rw [← List.singleton_append, needed_append, conts_append] at h5
    have h6 : needed [x] = n + 1 := by simp [needed, hx]
    have h7 : conts [x] = 0 := by simp [conts, lead_not_cont x _ hx]
    omega

/-- The lines entered with the keys that the keyboard decodes from some bytes. -/
def enteredFrom (p : Platform) (bytes : Str) : Option (List Str) :=
  match edRun ((Keyboard.decode p .first bytes).2.map .key) ⟨[], 0⟩ ⟨⟨false, false, false⟩, []⟩ with
  | .ok (_, _, ys) => some (entered ys)
  | .error _ => none

/-- **C93** Refuted, from the keyboard to the line entered: `é`, Backspace and Enter enter the first byte of `é`; `n`, `é`, Left, `x` and Enter enter `n`, the first byte of `é`, `x` and its second byte. -/
theorem C93_entered_refuted (p : Platform) : enteredFrom p [0xC3, 0xA9, 127, 10] = some [[0xC3]] ∧ ¬ Utf8 [0xC3] ∧
    enteredFrom p [b%'n', 0xC3, 0xA9, 27, b%'[', b%'D', b%'x', 10] = some [[b%'n', 0xC3, b%'x', 0xA9]] := by
  refine ⟨?_, ?_, ?_⟩
  · simp [enteredFrom, Keyboard.decode, Keyboard.next, edRun, keypressed, suffix, repSub, insertAt, eraseAt, entered, bind, Except.bind]
  · intro h; have := utf8_balanced _ h; revert this; decide
  · simp [enteredFrom, Keyboard.decode, Keyboard.next, edRun, keypressed, suffix, repSub, insertAt, eraseAt, entered, bind, Except.bind]

/-- `n`, `é`, Home, Delete, End, `€`, Enter: Delete meets a single byte. -/
example : Narrow [.type bs!"n", .type [0xC3, 0xA9], .home, .canc, .end, .type [0xE2, 0x82, 0xAC], .enter] ⟨[], []⟩ ∧
    (CharZip.run [.type bs!"n", .type [0xC3, 0xA9], .home, .canc, .end, .type [0xE2, 0x82, 0xAC], .enter] ⟨[], []⟩).2 = [[0xC3, 0xA9, 0xE2, 0x82, 0xAC]] := by
  refine ⟨?_, by decide⟩
  simp [Narrow, CharZip.op, CharZip.chars]

/-- `é` and `€` are characters; a lone byte, an overlong form and a surrogate are not. -/
example : char8 [0xC3, 0xA9] = true ∧ char8 [0xE2, 0x82, 0xAC] = true ∧ char8 [0xC3] = false ∧ char8 [0xC0, 0xAF] = false ∧ char8 [0xED, 0xA0, 0x80] = false := by decide

/-- `é` before the cursor. -/
example : CharZip.ok ⟨[[0xC3, 0xA9]], []⟩ ∧ 1 < [(0xC3 : Byte), 0xA9].length := by
  refine ⟨⟨?_, by simp⟩, by decide⟩
  intro c hc; simp at hc; subst hc; decide

end Verif.Props
