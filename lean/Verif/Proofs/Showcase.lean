import Verif.Model.Showcase
import Verif.Spec.Showcase
import Verif.Proofs.ScriptLoop

set_option linter.unusedSimpArgs false

/-!
# C113: the commands of the program `complete`, proofs
-/

namespace Verif.Showcase
open Spec Props
open FromString (Value)
open Plugins (int str number fits sorted)
open Script (Fine fine_tail)

variable {τ : Type}

abbrev W (τ : Type) := World St τ

def Place.id : Place → Nat
  | .root => 0 | .sub => 18 | .subsub => 21

def rootKids (gone : Bool) : Forest := firstKids (cond gone lastKids (.cmd colorCmd (.cmd nocolorCmd lastKids)))

def path (gone : Bool) : Place → Path
  | .root => [(rootInfo, rootKids gone)]
  | .sub => [(subInfo, subKids), (rootInfo, rootKids gone)]
  | .subsub => [(subsubInfo, subsubKids), (subInfo, subKids), (rootInfo, rootKids gone)]

def treeOf (gone : Bool) : Tree := ⟨rootInfo, rootKids gone⟩

theorem locate_place (g : Bool) (pl : Place) : (treeOf g).locate pl.id = some (path g pl) := by cases g <;> cases pl <;> rfl

/-- The history holds what the book does, and nobody is looking through it. -/
structure Kept (b : Book) (h : History.History) : Prop where
  mode : h.mode = .inserting
  room : h.maxSize = b.room
  first : h.idOfOldest = b.first
  entries : h.buffer = b.entries.reverse
  entered : h.commands = b.entered

/-- The session is in this state. -/
structure At (s : Seat) (w : W τ) : Prop where
  tree : w.tree = treeOf s.gone
  others : ∀ i : Nat, i ≠ 15 → i ≠ 16 → w.dis i = false
  color15 : s.gone = false → w.dis (15 : Nat) = s.colour
  color16 : s.gone = false → w.dis (16 : Nat) = !s.colour
  current : w.current = s.place.id
  exit : w.exit = false
  app : w.app = ⟨false, false⟩
  color : w.io.style.color = s.colour
  escapes : (w.io.style.forced || w.io.style.tty) = s.escapes
  hist : History.WF w.hist
  kept : Kept s.book w.hist

/-! ### What the functions of the commands do -/

/-- What a command writes itself. -/
def Reply.said : Reply → Str
  | .throws _ => []
  | r => r.text []

/-- What it writes to all sessions. -/
def Reply.cast : Reply → List Str
  | .announces t => [t]
  | _ => []

def Reply.exn : Reply → Option Exn
  | .throws m => some (.std m)
  | _ => none

def outcome : Reply → Outcome
  | .throws m => .thrown (.std m)
  | _ => .found

structure Step (s : Seat) (r : Reply) (w w' : W τ) : Prop where
  next : r ≠ .undefined → At (s.apply r) w'
  ub : r = .undefined → w'.app.ub = true
  out : w'.io.out = w.io.out ++ r.said
  hist : w'.hist = w.hist
  casts : w'.casts = w.casts ++ r.cast
  storage : w'.storage = w.storage

theorem at_note {s : Seat} {w : W τ} (h : At s w) (io : Io) (casts : List Str) (log : List Event) (hio : io.style = w.io.style) : At s { w with io := io, casts := casts, log := log } :=
  ⟨h.tree, h.others, h.color15, h.color16, h.current, h.exit, h.app, by show io.style.color = _; rw [hio]; exact h.color, by show (io.style.forced || io.style.tty) = _; rw [hio]; exact h.escapes, h.hist, h.kept⟩

theorem step_writes {s : Seat} {w : W τ} (h : At s w) (t : Str) (ev : Event) : Step s (.says t) w ((w.effect (writes w.app t)).note ev) :=
  ⟨fun _ => at_note h (w.io.put t) _ _ rfl, fun h => (by cases h), rfl, rfl, by simp [Reply.cast, writes, World.effect, World.note, World.act, World.put], rfl⟩

theorem step_cout {s : Seat} {w : W τ} (h : At s w) (t : Str) (ev : Event) : Step s (.announces t) w ((w.effect ⟨w.app, [.cout t], none⟩).note ev) :=
  ⟨fun _ => at_note h (w.io.put t) _ _ rfl, fun h => (by cases h), rfl, rfl, by simp [Reply.cast, World.effect, World.note, World.act, World.put], rfl⟩

theorem step_throws {s : Seat} {w : W τ} (h : At s w) (m : Str) (ev : Event) : Step s (.throws m) w ((w.effect ⟨w.app, [], some (.std m)⟩).note ev) :=
  ⟨fun _ => at_note h w.io _ _ rfl, fun h => (by cases h), by simp [Reply.said, World.effect, World.note], rfl, by simp [Reply.cast, World.effect, World.note], rfl⟩

theorem step_undefined {s : Seat} {w : W τ} (ev : Event) : Step s .undefined w ((w.effect ⟨{ w.app with ub := true }, [], none⟩).note ev) :=
  ⟨fun h => absurd rfl h, fun _ => rfl, by simp [Reply.said, Reply.text, World.effect, World.note], rfl, by simp [Reply.cast, World.effect, World.note], rfl⟩

theorem mem15 {w : W τ} (h : w.tree = treeOf false) : (15 : Nat) ∈ w.tree.ids ∧ (16 : Nat) ∈ w.tree.ids := by rw [h]; decide

theorem step_color {s : Seat} {w : W τ} (h : At s w) (hg : s.gone = false) (on : Bool) (t : Str) (ht : t = Reply.text [] (.colour on)) (a b : Nat) (hab : (a, b) = cond on (15, 16) (16, 15)) (acts : List Act)
    (hacts : acts = [.out t, .color on, .disable a, .enable b] ∨ acts = [.out t, .color on, .enable b, .disable a]) (ev : Event) : Step s (.colour on) w ((w.effect ⟨w.app, acts, none⟩).note ev) := by
  have htr := h.tree
  rw [hg] at htr
  obtain ⟨m1, m2⟩ := mem15 htr
  have ma : a ∈ w.tree.ids := by cases on <;> cases hab <;> assumption
  have mb : b ∈ w.tree.ids := by cases on <;> cases hab <;> assumption
  have hne : a ≠ b := by cases on <;> cases hab <;> decide
  have key : ∃ d : Id → Bool, ((w.effect ⟨w.app, acts, none⟩).note ev) = { w with dis := d, io := ⟨{ w.io.style with color := on }, w.io.out ++ t⟩, log := w.log ++ [ev] } ∧ d a = true ∧ d b = false ∧ ∀ i, i ≠ a → i ≠ b → d i = w.dis i := by
    rcases hacts with rfl | rfl
    · refine ⟨fun i => if i = b then false else if i = a then true else w.dis i, ?_, by simp [hne], by simp, fun i h1 h2 => by simp [h1, h2]⟩
      simp only [World.effect, List.foldl_cons, List.foldl_nil, World.act, World.put, Io.put, World.note, ma, mb, if_true]
    · refine ⟨fun i => if i = a then true else if i = b then false else w.dis i, ?_, by simp, by simp [hne.symm], fun i h1 h2 => by simp [h1, h2]⟩
      simp only [World.effect, List.foldl_cons, List.foldl_nil, World.act, World.put, Io.put, World.note, ma, mb, if_true]
  obtain ⟨d, hd, da, db, dd⟩ := key
  rw [hd]
  refine ⟨fun _ => ⟨h.tree, ?_, ?_, ?_, h.current, h.exit, h.app, rfl, h.escapes, h.hist, h.kept⟩, fun h => (by cases h), by subst ht; cases on <;> rfl, rfl, by simp [Reply.cast], rfl⟩
  · intro i h1 h2
    show d i = false
    rw [dd i (by cases on <;> cases hab <;> assumption) (by cases on <;> cases hab <;> assumption)]
    exact h.others i h1 h2
  · intro _; cases on <;> cases hab <;> assumption
  · intro _; cases on <;> cases hab <;> assumption

theorem step_removes {s : Seat} {w : W τ} (h : At s w) (ev : Event) : Step s .removes w ((w.effect ⟨w.app, [.remove 15, .remove 16], none⟩).note ev) := by
  have key : ∃ g, ((w.effect ⟨w.app, [.remove 15, .remove 16], none⟩).note ev) = { w with tree := treeOf true, gen := g, log := w.log ++ [ev] } := by
    cases hg : s.gone with
    | false =>
      have ht := h.tree; rw [hg] at ht
      have e1 : (15 : Nat) ∈ w.tree.kids.ids := by rw [ht]; decide
      have e2 : (16 : Nat) ∈ (w.tree.remove 15).kids.ids := by rw [ht]; decide
      have e3 : (w.tree.remove 15).remove 16 = treeOf true := by rw [ht]; decide +kernel
      refine ⟨w.gen + 1 + 1, ?_⟩
      simp only [World.effect, List.foldl_cons, List.foldl_nil, World.act, World.note, e1, e2, e3, if_true]
    | true =>
      have ht := h.tree; rw [hg] at ht
      have e1 : (15 : Nat) ∉ w.tree.kids.ids := by rw [ht]; decide
      have e2 : (16 : Nat) ∉ w.tree.kids.ids := by rw [ht]; decide
      refine ⟨w.gen, ?_⟩
      simp only [World.effect, List.foldl_cons, List.foldl_nil, World.act, World.note, e1, e2, if_false, ← ht]
  obtain ⟨g, hk⟩ := key
  rw [hk]
  exact ⟨fun _ => ⟨rfl, h.others, fun h => (by cases h), fun h => (by cases h), h.current, h.exit, h.app, h.color, h.escapes, h.hist, h.kept⟩, fun h => (by cases h), by simp [Reply.said, Reply.text], rfl, by simp [Reply.cast], rfl⟩

theorem step_goes {s : Seat} {w : W τ} (h : At s w) (pl : Place) : Step s (.goes pl) w { w with current := pl.id } :=
  ⟨fun _ => ⟨h.tree, h.others, h.color15, h.color16, rfl, h.exit, h.app, h.color, h.escapes, h.hist, h.kept⟩, fun h => (by cases h), by simp [Reply.said, Reply.text], rfl, by simp [Reply.cast], rfl⟩

/-! ### One command -/

/-- Reading a value of a type of the program throws no exception. -/
def Quiet (E : Env) : Prop := ∀ k a e, E.p.extract k a ≠ .error e

section
variable (E : Env) {store : τ → List Str → τ} {stored : τ → List Str} {telnet : Bool}

/-- The command does what the row of the table says. -/
def Serves (A : App St τ) (s : Seat) (c : Cmd) (row : Str × (List Str → Reply → Prop)) : Prop := ∀ t rest (w : W τ), At s w → Fine A.plat rest →
  (∃ r w', t = row.1 ∧ row.2 rest r ∧ execCmd A c (t :: rest) w = .ok (w', outcome r) ∧ Step s r w w') ∨
  ((∀ r, t = row.1 → ¬ row.2 rest r) ∧ execCmd A c (t :: rest) w = .ok (w, .notFound))

theorem serves_variadic {s : Seat} {c : Cmd} {ps : List Param} {does : List Str → Reply → Prop} (hk : c.kind = .variadic ps) (hd : ∀ w : W τ, At s w → w.dis c.id = false) (hlen : ∀ rest r, does rest r → rest.length = ps.length)
    (h : ∀ rest (w : W τ), At s w → Fine E.p rest → rest.length = ps.length →
      (∃ vals r, convert E.p ps rest = .ok vals ∧ does rest r ∧ (call E w.app c.fn vals).exn = r.exn ∧ ∀ ev, Step s r w ((w.effect (call E w.app c.fn vals)).note ev)) ∨
      (convert E.p ps rest = .error .bad ∧ ∀ r, ¬ does rest r)) :
    Serves (app E store stored telnet) s c (c.name, does) := by
  intro t rest w hw hf
  unfold execCmd
  rw [if_neg (by rw [hd w hw]; simp), hk]
  dsimp only
  by_cases hl : rest.length = ps.length
  · rw [if_neg (by simp [hl])]
    by_cases ht : t = c.name
    · subst ht
      rw [if_pos rfl]
      rcases h rest w hw hf hl with ⟨vals, r, h1, h2, h3, h4⟩ | ⟨h1, h2⟩
      · refine .inl ⟨r, (w.effect (call E w.app c.fn vals)).note (.ran c vals w.snap r.exn), rfl, h2, ?_, h4 _⟩
        have hp : (app E store stored telnet).plat = E.p := rfl
        simp only [hp, h1]
        have e : callHandler (app E store stored telnet) c vals w = ((w.effect (call E w.app c.fn vals)).note (.ran c vals w.snap r.exn), r.exn) := by
          unfold callHandler
          show ((w.effect (call E w.app c.fn vals)).note (.ran c vals w.snap (call E w.app c.fn vals).exn), (call E w.app c.fn vals).exn) = _
          rw [h3]
        rw [e]
        cases r <;> rfl
      · refine .inr ⟨fun r _ => h2 r, ?_⟩
        have hp : (app E store stored telnet).plat = E.p := rfl
        simp only [hp, h1]
    · rw [if_neg (fun hh => ht hh.symm)]
      exact .inr ⟨fun r hh => absurd hh ht, rfl⟩
  · rw [if_pos (by simpa using hl)]
    exact .inr ⟨fun r _ hr => hl (hlen rest r hr), rfl⟩

theorem int_conv {a : Str} (hf : Fine E.p [a]) : (∃ i, IsInt a i ∧ FromString.fromString E.p (.signed .w32) a = .ok (.int i)) ∨ ((∀ i, ¬ IsInt a i) ∧ FromString.fromString E.p (.signed .w32) a = .error .bad) := by
  obtain ⟨f1, f2⟩ := hf a (by simp)
  by_cases hs : ∃ i : Int, IsInt a i
  · obtain ⟨i, h1, h2, h3⟩ := hs
    have hr : Plugged.Reads E.p a i := ⟨h1, h2, h3, f2⟩
    exact .inl ⟨i, ⟨h1, h2, h3⟩, hr.converts⟩
  · refine .inr ⟨fun i hi => hs ⟨i, hi⟩, ?_⟩
    rcases C05_signed_rejects_partial E.p .w32 a (f2.imp id .inr) (by
      rintro ⟨i, h1, h2, h3⟩
      refine hs ⟨i, h1, ?_, ?_⟩
      · simp only [FromString.Width.card] at h2; omega
      · simp only [FromString.Width.card] at h3; omega) with h | ⟨_, c, hc, h⟩
    · exact h
    · rw [f1 c hc] at h; cases h

theorem value_conv (hq : Quiet E) (k : Nat) (a : Str) :
    (∃ v, IsValue E k a v ∧ FromString.fromString E.p (.custom k) a = .ok (.custom k v)) ∨ ((∀ v, ¬ IsValue E k a v) ∧ FromString.fromString E.p (.custom k) a = .error .bad) := by
  cases hc : FromString.fromString E.p (.custom k) a with
  | ok v =>
    obtain ⟨n, sz, h1, h2, rfl⟩ := (C08_custom_whole_token E.p k a v).1 hc
    exact .inl ⟨n, ⟨sz, h1, h2⟩, rfl⟩
  | error e =>
    rcases C08_custom_rejects_partial E.p k a e hc with rfl | ⟨x, hx, _⟩
    · refine .inr ⟨fun v ⟨sz, h1, h2⟩ => ?_, rfl⟩
      rw [(C08_custom_whole_token E.p k a (.custom k v)).2 ⟨v, sz, h1, h2, rfl⟩] at hc
      cases hc
    · exact absurd hx (hq k a x)

theorem serves_plain {s : Seat} (id : Nat) (nm d : Str) (r : Reply) (hd : ∀ w : W τ, At s w → w.dis id = false) (hx : ∀ w : St, (call E w id []).exn = r.exn)
    (h : ∀ (w : W τ) ev, At s w → Step s r w ((w.effect (call E w.app id [])).note ev)) : Serves (app E store stored telnet) s (cmd id nm [] d) (nm, plain r) :=
  serves_variadic E (ps := []) rfl hd (fun _ _ h => by rw [h.1]; rfl) (fun rest w hw _ hl => by
    obtain rfl : rest = [] := List.length_eq_zero_iff.1 hl
    exact .inl ⟨[], r, rfl, ⟨rfl, rfl⟩, hx _, fun ev => h w ev hw⟩)

theorem serves_numeric {s : Seat} (id : Nat) (nm d : Str) (pd : List Str) (f : Str → Str) (hd : ∀ w : W τ, At s w → w.dis id = false) (h : ∀ w i, call E w id [.int i] = writes w (f (number i) ++ bs!"\n")) :
    Serves (app E store stored telnet) s (cmd id nm [int] d pd) (nm, numeric f) :=
  serves_variadic E (ps := [int]) rfl hd (fun _ _ ⟨_, _, _, h, _⟩ => by rw [h]; rfl) (fun rest w hw hf hl => by
    match rest, hl, hf with
    | [a], _, hf =>
      rcases int_conv E hf with ⟨i, h1, h2⟩ | ⟨h1, h2⟩
      · refine .inl ⟨[.int i], .says (f (number i) ++ bs!"\n"), by simp only [convert, int, h2]; rfl, ⟨a, i, number i, rfl, h1, Plugged.number_shows i, rfl⟩, ?_, fun ev => ?_⟩
        · show (call E w.app id [.int i]).exn = _
          rw [h]; rfl
        · show Step s _ w ((w.effect (call E w.app id [.int i])).note ev)
          rw [h]; exact step_writes hw _ ev
      · refine .inr ⟨by simp only [convert, int, h2]; rfl, ?_⟩
        rintro r ⟨a', i, _, e, hi, _⟩
        cases e; exact h1 i hi)

theorem serves_value {s : Seat} (hq : Quiet E) (id k : Nat) (nm d tn : Str) (f : Nat → Str) (hd : ∀ w : W τ, At s w → w.dis id = false) (h : ∀ w i, call E w id [.custom k i] = writes w (f i)) :
    Serves (app E store stored telnet) s (cmd id nm [⟨.custom k, tn⟩] d) (nm, fun args x => ∃ a v, args = [a] ∧ IsValue E k a v ∧ x = .says (f v)) :=
  serves_variadic E (ps := [⟨.custom k, tn⟩]) rfl hd (fun _ _ ⟨_, _, h, _⟩ => by rw [h]; rfl) (fun rest w hw hf hl => by
    match rest, hl, hf with
    | [a], _, hf =>
      rcases value_conv E hq k a with ⟨i, h1, h2⟩ | ⟨h1, h2⟩
      · refine .inl ⟨[.custom k i], .says (f i), by simp only [convert, h2]; rfl, ⟨a, i, rfl, h1, rfl⟩, ?_, fun ev => ?_⟩
        · show (call E w.app id [.custom k i]).exn = _
          rw [h]; rfl
        · show Step s _ w ((w.effect (call E w.app id [.custom k i])).note ev)
          rw [h]; exact step_writes hw _ ev
      · refine .inr ⟨by simp only [convert, h2]; rfl, ?_⟩
        rintro r ⟨a', i, e, hi, _⟩
        cases e; exact h1 i hi)

theorem serves_text {s : Seat} (id : Nat) (nm d : Str) (pd : List Str) (f : Str → Str) (hd : ∀ w : W τ, At s w → w.dis id = false) (h : ∀ w a, call E w id [.str a] = writes w (f a)) :
    Serves (app E store stored telnet) s (cmd id nm [str] d pd) (nm, fun args x => ∃ a, args = [a] ∧ x = .says (f a)) :=
  serves_variadic E (ps := [str]) rfl hd (fun _ _ ⟨_, h, _⟩ => by rw [h]; rfl) (fun rest w hw hf hl => by
    match rest, hl, hf with
    | [a], _, hf =>
      refine .inl ⟨[.str a], .says (f a), rfl, ⟨a, rfl, rfl⟩, ?_, fun ev => ?_⟩
      · show (call E w.app id [.str a]).exn = _
        rw [h]; rfl
      · show Step s _ w ((w.effect (call E w.app id [.str a])).note ev)
        rw [h]; exact step_writes hw _ ev)

theorem serves_echo {s : Seat} (hd : ∀ w : W τ, At s w → w.dis (7 : Nat) = false) (d : Str) (pd : List Str) :
    Serves (app E store stored telnet) s (cmd 7 bs!"echo" [str, str] d pd) (bs!"echo", fun args x => ∃ a b, args = [a, b] ∧ x = .says (a ++ bs!" " ++ b ++ bs!"\n")) :=
  serves_variadic E (ps := [str, str]) rfl hd (fun _ _ ⟨_, _, h, _⟩ => by rw [h]; rfl) (fun rest w hw hf hl => by
    match rest, hl, hf with
    | [a, b], _, hf => exact .inl ⟨[.str a, .str b], .says (a ++ bs!" " ++ b ++ bs!"\n"), rfl, ⟨a, b, rfl, rfl⟩, rfl, fun ev => step_writes hw _ ev⟩)

theorem fits_small (x : Int) : fits x = true ↔ Small x := Plugged.fits_iff x

theorem calculates_step {s : Seat} {w : W τ} (hw : At s w) (rs : List Int) (text : Str) : ∃ r : Reply, (((∀ x ∈ rs, Small x) ∧ r = .says text) ∨ (¬ (∀ x ∈ rs, Small x) ∧ r = .undefined)) ∧ (calculates w.app rs text).exn = r.exn ∧
    ∀ ev, Step s r w ((w.effect (calculates w.app rs text)).note ev) := by
  unfold calculates
  by_cases h : rs.all fits = true
  · rw [if_pos h]
    refine ⟨_, .inl ⟨fun x hx => (fits_small x).1 (List.all_eq_true.1 h x hx), rfl⟩, rfl, fun ev => step_writes hw _ ev⟩
  · rw [if_neg h]
    refine ⟨_, .inr ⟨fun hh => h (List.all_eq_true.2 fun x hx => (fits_small x).2 (hh x hx)), rfl⟩, rfl, fun ev => step_undefined ev⟩

theorem fine_head {p : Platform} {a : Str} {l : List Str} (h : Fine p (a :: l)) : Fine p [a] := fun x hx => h x (by simp at hx; simp [hx])

theorem serves_add2 {s : Seat} (hd : ∀ w : W τ, At s w → w.dis (10 : Nat) = false) (d : Str) (pd : List Str) : Serves (app E store stored telnet) s (cmd 10 bs!"add" [int, int] d pd) (bs!"add", sum2) :=
  serves_variadic E (ps := [int, int]) rfl hd (fun _ _ ⟨_, _, _, _, h, _⟩ => by rw [h]; rfl) (fun rest w hw hf hl => by
    match rest, hl, hf with
    | [a, b], _, hf =>
      rcases int_conv E (fine_head hf) with ⟨i, h1, h2⟩ | ⟨h1, h2⟩
      · rcases int_conv E (fine_head (fine_tail _ hf)) with ⟨j, g1, g2⟩ | ⟨g1, g2⟩
        · obtain ⟨r, c1, c2, c3⟩ := calculates_step hw [i + j] (number i ++ bs!" + " ++ number j ++ bs!" = " ++ number (i + j) ++ bs!"\n")
          refine .inl ⟨[.int i, .int j], r, by simp only [convert, int, h2, g2]; rfl, ⟨a, b, i, j, rfl, h1, g1, ?_⟩, c2, c3⟩
          rcases c1 with ⟨c1, rfl⟩ | ⟨c1, rfl⟩
          · exact .inl ⟨c1 _ (by simp), _, _, _, Plugged.number_shows i, Plugged.number_shows j, Plugged.number_shows _, rfl⟩
          · exact .inr ⟨fun h => c1 (by simpa using h), rfl⟩
        · refine .inr ⟨by simp only [convert, int, h2, g2]; rfl, ?_⟩
          rintro r ⟨a', b', i', j', e, hi, hj, _⟩
          cases e; exact g1 _ hj
      · refine .inr ⟨by simp only [convert, int, h2]; rfl, ?_⟩
        rintro r ⟨a', b', i', j', e, hi, hj, _⟩
        cases e; exact h1 _ hi)

theorem serves_add3 {s : Seat} (hd : ∀ w : W τ, At s w → w.dis (11 : Nat) = false) (d : Str) (pd : List Str) : Serves (app E store stored telnet) s (cmd 11 bs!"add" [int, int, int] d pd) (bs!"add", sum3) :=
  serves_variadic E (ps := [int, int, int]) rfl hd (fun _ _ ⟨_, _, _, _, _, _, h, _⟩ => by rw [h]; rfl) (fun rest w hw hf hl => by
    match rest, hl, hf with
    | [a, b, c], _, hf =>
      rcases int_conv E (fine_head hf) with ⟨i, h1, h2⟩ | ⟨h1, h2⟩
      · rcases int_conv E (fine_head (fine_tail _ hf)) with ⟨j, g1, g2⟩ | ⟨g1, g2⟩
        · rcases int_conv E (fine_head (fine_tail _ (fine_tail _ hf))) with ⟨k, e1, e2⟩ | ⟨e1, e2⟩
          · obtain ⟨r, c1, c2, c3⟩ := calculates_step hw [i + j, i + j + k] (number i ++ bs!" + " ++ number j ++ bs!" + " ++ number k ++ bs!" = " ++ number (i + j + k) ++ bs!"\n")
            refine .inl ⟨[.int i, .int j, .int k], r, by simp only [convert, int, h2, g2, e2]; rfl, ⟨a, b, c, i, j, k, rfl, h1, g1, e1, ?_⟩, c2, c3⟩
            rcases c1 with ⟨c1, rfl⟩ | ⟨c1, rfl⟩
            · exact .inl ⟨c1 _ (by simp), c1 _ (by simp), _, _, _, _, Plugged.number_shows i, Plugged.number_shows j, Plugged.number_shows k, Plugged.number_shows _, rfl⟩
            · exact .inr ⟨fun h => c1 (by simpa using h), rfl⟩
          · refine .inr ⟨by simp only [convert, int, h2, g2, e2]; rfl, ?_⟩
            rintro r ⟨a', b', c', i', j', k', e, hi, hj, hk, _⟩
            cases e; exact e1 _ hk
        · refine .inr ⟨by simp only [convert, int, h2, g2]; rfl, ?_⟩
          rintro r ⟨a', b', c', i', j', k', e, hi, hj, hk, _⟩
          cases e; exact g1 _ hj
      · refine .inr ⟨by simp only [convert, int, h2]; rfl, ?_⟩
        rintro r ⟨a', b', c', i', j', k', e, hi, hj, hk, _⟩
        cases e; exact h1 _ hi)

theorem serves_sort {s : Seat} (hd : ∀ w : W τ, At s w → w.dis (12 : Nat) = false) (d : Str) (pd : List Str) : Serves (app E store stored telnet) s ⟨12, bs!"sort", .freeform, 12, d, pd⟩ (bs!"sort", sort) := by
  intro t rest w hw hf
  unfold execCmd
  rw [if_neg (by rw [hd w hw]; simp)]
  dsimp only
  by_cases ht : t = bs!"sort"
  · subst ht
    rw [if_pos rfl]
    have e : call E w.app 12 (rest.map Value.str) = writes w.app (bs!"sorted list: " ++ (sorted rest).flatMap (· ++ bs!" ") ++ bs!"\n") := by
      show writes _ (bs!"sorted list: " ++ (sorted (List.filterMap _ (rest.map Value.str))).flatMap _ ++ _) = _
      rw [Plugged.only_strings _ (fun _ => rfl)]
    refine .inl ⟨.says (bs!"sorted list: " ++ (sorted rest).flatMap (· ++ bs!" ") ++ bs!"\n"), _, rfl,
      ⟨sorted rest, List.mergeSort_perm _ _, (List.pairwise_mergeSort Plugged.before_trans Plugged.before_total rest).imp (fun h => (Plugged.before_iff _ _).1 h), rfl⟩, ?_, step_writes hw _ (.ran ⟨12, bs!"sort", .freeform, 12, d, pd⟩ (rest.map Value.str) w.snap none)⟩
    have e2 : callHandler (app E store stored telnet) ⟨12, bs!"sort", .freeform, 12, d, pd⟩ (rest.map Value.str) w = ((w.effect (writes w.app (bs!"sorted list: " ++ (sorted rest).flatMap (· ++ bs!" ") ++ bs!"\n"))).note (.ran ⟨12, bs!"sort", .freeform, 12, d, pd⟩ (rest.map Value.str) w.snap none), none) := by
      unfold callHandler
      show ((w.effect (call E w.app 12 (rest.map Value.str))).note (.ran _ _ w.snap (call E w.app 12 (rest.map Value.str)).exn), (call E w.app 12 (rest.map Value.str)).exn) = _
      rw [e]; rfl
    rw [e2]; rfl
  · rw [if_neg (fun hh => ht hh.symm)]
    exact .inr ⟨fun r hh => absurd hh ht, rfl⟩

/-- A command that is disabled, when the table does not have it. -/
theorem serves_disabled {A : App St τ} {s : Seat} {c : Cmd} {row : Str × (List Str → Reply → Prop)} (hd : ∀ w : W τ, At s w → w.dis c.id = true) (hr : ∀ args r, ¬ row.2 args r) : Serves A s c row := by
  intro t rest w hw _
  unfold execCmd
  rw [if_pos (hd w hw)]
  exact .inr ⟨fun r _ => hr rest r, rfl⟩

theorem serves_iff {A : App St τ} {s : Seat} {c : Cmd} {nm : Str} {d1 d2 : List Str → Reply → Prop} (h : Serves A s c (nm, d1)) (hd : ∀ a r, d1 a r ↔ d2 a r) : Serves A s c (nm, d2) := by
  intro t rest w hw hf
  rcases h t rest w hw hf with ⟨r, w', a, b, c⟩ | ⟨a, b⟩
  · exact .inl ⟨r, w', a, (hd _ _).1 b, c⟩
  · exact .inr ⟨fun r e hr => a r e ((hd _ _).2 hr), b⟩

/-! ### The menus -/

/-- The first commands of the root menu with their rows in the table. -/
def firstPairs : List (Cmd × (Str × (List Str → Reply → Prop))) :=
    [(cmd 1 bs!"free_function" [int] bs!"Call a free function that echoes the parameter passed", (bs!"free_function", numeric id)),
     (cmd 2 bs!"hello" [] bs!"Print hello world", (bs!"hello", plain (.says bs!"Hello, world\n"))),
     (cmd 3 bs!"hello_everysession" [] bs!"Print hello everybody on all open sessions", (bs!"hello_everysession", plain (.announces bs!"Hello, everybody\n"))),
     (cmd 4 bs!"answer" [int] bs!"Print the answer to Life, the Universe and Everything", (bs!"answer", numeric (bs!"The answer is: " ++ ·))),
     (cmd 5 bs!"file" [int] bs!"Print the file descriptor specified" [bs!"file_descriptor"], (bs!"file", numeric (bs!"file descriptor: " ++ ·))),
     (cmd 6 bs!"echo" [str] bs!"Print the string passed as parameter" [bs!"string to echo"], (bs!"echo", fun args x => ∃ a, args = [a] ∧ x = .says (a ++ bs!"\n"))),
     (cmd 7 bs!"echo" [str, str] bs!"Print the strings passed as parameter" [bs!"first string to echo", bs!"second string to echo"], (bs!"echo", fun args x => ∃ a b, args = [a, b] ∧ x = .says (a ++ bs!" " ++ b ++ bs!"\n"))),
     (cmd 8 bs!"error" [] bs!"Throw an exception in the command handler", (bs!"error", plain (.throws bs!"Error in cmd"))),
     (cmd 9 bs!"reverse" [str] bs!"Print the reverse string" [bs!"string_to_revert"], (bs!"reverse", fun args x => ∃ a, args = [a] ∧ x = .says (a.reverse ++ bs!"\n"))),
     (cmd 10 bs!"add" [int, int] bs!"Print the sum of the two numbers" [bs!"first_term", bs!"second_term"], (bs!"add", sum2)),
     (cmd 11 bs!"add" [int, int, int] bs!"Print the sum of the three numbers", (bs!"add", sum3)),
     (⟨12, bs!"sort", .freeform, 12, bs!"Alphabetically sort a list of words", [bs!"list of strings separated by space"]⟩, (bs!"sort", sort)),
     (cmd 13 bs!"bar" [⟨.custom 0, bs!"<bar>"⟩] bs!"Custom type", (bs!"bar", fun args x => ∃ a v, args = [a] ∧ IsValue E 0 a v ∧ x = .says (bs!"You entered bar: " ++ E.bar v ++ bs!"\n"))),
     (cmd 14 bs!"complex" [⟨.custom 1, bs!"<complex>"⟩] bs!"Print a complex number", (bs!"complex", fun args x => ∃ a v, args = [a] ∧ IsValue E 1 a v ∧ x = .says (bs!"You entered complex : " ++ E.complex v ++ bs!"\n")))]

/-- The commands of a menu with their rows in the table. -/
def pairs (s : Seat) : Place → List (Cmd × (Str × (List Str → Reply → Prop)))
  | .root =>
    firstPairs E ++
    cond s.gone []
    [(colorCmd, (bs!"color", fun args x => s.gone = false ∧ s.colour = false ∧ plain (.colour true) args x)),
     (nocolorCmd, (bs!"nocolor", fun args x => s.gone = false ∧ s.colour = true ∧ plain (.colour false) args x))] ++
    [(cmd 17 bs!"removecmds" [] bs!"Remove both color and nocolor commands from the menu", (bs!"removecmds", plain .removes))]
  | .sub =>
    [(cmd 19 bs!"hello" [] bs!"Print hello world in the submenu", (bs!"hello", plain (.says bs!"Hello, submenu world\n"))),
     (cmd 20 bs!"demo" [] bs!"Print a demo string", (bs!"demo", plain (.says bs!"This is a sample!\n")))]
  | .subsub => [(cmd 22 bs!"hello" [] bs!"Print hello world in the sub-submenu", (bs!"hello", plain (.says bs!"Hello, subsubmenu world\n")))]

/-- The menus below. -/
def below : Place → Forest
  | .root => .menu subInfo subKids .nil
  | .sub => .menu subsubInfo subsubKids .nil
  | .subsub => .nil

def kids (g : Bool) : Place → Forest
  | .root => rootKids g | .sub => subKids | .subsub => subsubKids

theorem kids_pairs (s : Seat) (pl : Place) : kids s.gone pl = (pairs E s pl).foldr (fun x f => .cmd x.1 f) (below pl) := by
  cases pl
  · cases hg : s.gone <;> simp only [pairs, hg, cond] <;> rfl
  · rfl
  · rfl

/-- The rows that are missing do nothing. -/
theorem rows_pairs (s : Seat) (pl : Place) (t : Str) (args : List Str) (r : Reply) :
    (∃ row ∈ (pairs E s pl).map (·.2), t = row.1 ∧ row.2 args r) ↔ ∃ row ∈ rows E s pl, t = row.1 ∧ row.2 args r := by
  cases pl
  · have e : rows E s .root = (firstPairs E).map (·.2) ++ [(bs!"color", fun args x => s.gone = false ∧ s.colour = false ∧ plain (.colour true) args x),
        (bs!"nocolor", fun args x => s.gone = false ∧ s.colour = true ∧ plain (.colour false) args x)] ++ [(bs!"removecmds", plain .removes)] := rfl
    rw [e]
    simp only [pairs, List.map_append]
    cases hg : s.gone
    · simp only [cond, List.map_cons, List.map_nil]
    · simp only [cond, List.map_nil, List.append_nil, List.map_cons]
      constructor
      · rintro ⟨row, hm, h⟩
        exact ⟨row, by rcases List.mem_append.1 hm with hm | hm <;> simp [hm], h⟩
      · rintro ⟨row, hm, h⟩
        refine ⟨row, ?_, h⟩
        simp only [List.mem_append, List.mem_cons, List.not_mem_nil, or_false] at hm ⊢
        rcases hm with (hm | hm | hm) | hm
        · exact .inl hm
        · rw [hm] at h; cases h.2.1
        · rw [hm] at h; cases h.2.1
        · exact .inr hm
  · rfl
  · rfl

theorem pairs_serve (hq : Quiet E) (s : Seat) (pl : Place) : ∀ x ∈ pairs E s pl, Serves (app E store stored telnet) s x.1 x.2 := by
  have o : ∀ i : Nat, i ≠ 15 → i ≠ 16 → ∀ w : W τ, At s w → w.dis i = false := fun i h1 h2 w h => h.others i h1 h2
  cases pl
  · intro x hx
    simp only [pairs, firstPairs, List.mem_append, List.mem_cons, List.not_mem_nil, or_false] at hx
    rcases hx with ((h | h | h | h | h | h | h | h | h | h | h | h | h | h) | h) | h
    · rw [h]; exact serves_numeric E 1 _ _ _ _ (o 1 (by decide) (by decide)) (fun _ _ => rfl)
    · rw [h]; exact serves_plain E 2 _ _ _ (o 2 (by decide) (by decide)) (fun _ => rfl) (fun w ev hw => step_writes hw _ ev)
    · rw [h]; exact serves_plain E 3 _ _ _ (o 3 (by decide) (by decide)) (fun _ => rfl) (fun w ev hw => step_cout hw _ ev)
    · rw [h]; exact serves_numeric E 4 _ _ _ _ (o 4 (by decide) (by decide)) (fun _ _ => rfl)
    · rw [h]; exact serves_numeric E 5 _ _ _ _ (o 5 (by decide) (by decide)) (fun _ _ => rfl)
    · rw [h]; exact serves_text E 6 _ _ _ (· ++ bs!"\n") (o 6 (by decide) (by decide)) (fun _ _ => rfl)
    · rw [h]; exact serves_echo E (o 7 (by decide) (by decide)) _ _
    · rw [h]; exact serves_plain E 8 _ _ _ (o 8 (by decide) (by decide)) (fun _ => rfl) (fun w ev hw => step_throws hw _ ev)
    · rw [h]; exact serves_text E 9 _ _ _ (·.reverse ++ bs!"\n") (o 9 (by decide) (by decide)) (fun _ _ => rfl)
    · rw [h]; exact serves_add2 E (o 10 (by decide) (by decide)) _ _
    · rw [h]; exact serves_add3 E (o 11 (by decide) (by decide)) _ _
    · rw [h]; exact serves_sort E (o 12 (by decide) (by decide)) _ _
    · rw [h]; exact serves_value E hq 13 0 _ _ _ (fun v => bs!"You entered bar: " ++ E.bar v ++ bs!"\n") (o 13 (by decide) (by decide)) (fun _ _ => rfl)
    · rw [h]; exact serves_value E hq 14 1 _ _ _ (fun v => bs!"You entered complex : " ++ E.complex v ++ bs!"\n") (o 14 (by decide) (by decide)) (fun _ _ => rfl)
    · cases hg : s.gone with
      | true => rw [hg] at h; simp [cond] at h
      | false =>
        rw [hg] at h
        simp only [cond, List.mem_cons, List.not_mem_nil, or_false] at h
        cases hc : s.colour with
        | false =>
          rcases h with h | h
          · rw [h]
            refine serves_iff (d1 := plain (.colour true)) (serves_plain E 15 _ _ _ (fun w hw => by rw [hw.color15 hg, hc]) (fun _ => rfl) (fun w ev hw => ?_)) (fun a r => by simp [hc])
            exact step_color hw hg true _ rfl 15 16 rfl _ (.inl rfl) ev
          · rw [h]
            exact serves_disabled (fun w hw => by show w.dis (16 : Nat) = true; rw [hw.color16 hg, hc]; rfl) (fun args r hh => by rw [hc] at hh; cases hh.2.1)
        | true =>
          rcases h with h | h
          · rw [h]
            exact serves_disabled (fun w hw => by show w.dis (15 : Nat) = true; rw [hw.color15 hg, hc]) (fun args r hh => by rw [hc] at hh; cases hh.2.1)
          · rw [h]
            refine serves_iff (d1 := plain (.colour false)) (serves_plain E 16 _ _ _ (fun w hw => by rw [hw.color16 hg, hc]; rfl) (fun _ => rfl) (fun w ev hw => ?_)) (fun a r => by simp [hc])
            exact step_color hw hg false _ rfl 16 15 rfl _ (.inr rfl) ev
    · rw [h]; exact serves_plain E 17 _ _ _ (o 17 (by decide) (by decide)) (fun _ => rfl) (fun w ev hw => step_removes hw ev)
  · intro x hx
    simp only [pairs, List.mem_cons, List.not_mem_nil, or_false] at hx
    rcases hx with h | h
    · rw [h]; exact serves_plain E 19 _ _ _ (o 19 (by decide) (by decide)) (fun _ => rfl) (fun w ev hw => step_writes hw _ ev)
    · rw [h]; exact serves_plain E 20 _ _ _ (o 20 (by decide) (by decide)) (fun _ => rfl) (fun w ev hw => step_writes hw _ ev)
  · intro x hx
    simp only [pairs, List.mem_cons, List.not_mem_nil, or_false] at hx
    rw [hx]; exact serves_plain E 22 _ _ _ (o 22 (by decide) (by decide)) (fun _ => rfl) (fun w ev hw => step_writes hw _ ev)

theorem goOn_found {w w' : W τ} {r : Reply} {next : W τ → Res St τ} : goOn w (.ok (w', outcome r)) next = .ok (w', outcome r) := by cases r <;> rfl
theorem goOn_next {w : W τ} {next : W τ → Res St τ} : goOn w (.ok (w, .notFound)) next = next w := by simp [goOn]

/-- The commands of a menu, in order. -/
theorem scan_rows {A : App St τ} {s : Seat} {t : Str} {rest : List Str} (hf : Fine A.plat rest) (sub : MenuInfo → Forest → W τ → Res St τ) (tail : Forest) {w : W τ} (hw : At s w) :
    ∀ (l : List (Cmd × (Str × (List Str → Reply → Prop)))), (∀ x ∈ l, Serves A s x.1 x.2) →
    (∃ row ∈ l.map (·.2), ∃ r w', t = row.1 ∧ row.2 rest r ∧ scanEntries A (t :: rest) sub (l.foldr (fun x f => .cmd x.1 f) tail) w = .ok (w', outcome r) ∧ Step s r w w') ∨
    ((∀ row ∈ l.map (·.2), ∀ r, t = row.1 → ¬ row.2 rest r) ∧ scanEntries A (t :: rest) sub (l.foldr (fun x f => .cmd x.1 f) tail) w = scanEntries A (t :: rest) sub tail w)
  | [], _ => .inr ⟨by simp, rfl⟩
  | x :: l, hl => by
    rcases hl x (by simp) t rest w hw hf with ⟨r, w', h1, h2, h3, h4⟩ | ⟨h1, h2⟩
    · refine .inl ⟨x.2, by simp, r, w', h1, h2, ?_, h4⟩
      rw [List.foldr_cons, scanEntries, h3, goOn_found]
    · rcases scan_rows hf sub tail hw l (fun y hy => hl y (by simp [hy])) with ⟨row, m, r, w', g1, g2, g3, g4⟩ | ⟨g1, g2⟩
      · refine .inl ⟨row, by simpa using .inr (by simpa using m), r, w', g1, g2, ?_, g4⟩
        rw [List.foldr_cons, scanEntries, h2, goOn_next, g3]
      · refine .inr ⟨?_, ?_⟩
        · intro row hr r
          rcases List.mem_cons.1 hr with rfl | hr
          · exact h1 r
          · exact g1 row hr r
        · rw [List.foldr_cons, scanEntries, h2, goOn_next, g2]

theorem does_nil {E : Env} {s : Seat} {pl : Place} {r : Reply} : ¬ Does E s pl [] r := by
  intro h
  generalize hk : ([] : List Str) = toks at h
  cases h <;> cases hk

theorem does_cons {E : Env} {s : Seat} {pl : Place} {t : Str} {rest : List Str} {r : Reply} : Does E s pl (t :: rest) r ↔
    (∃ row ∈ rows E s pl, t = row.1 ∧ row.2 rest r) ∨ (∃ b, Above pl b ∧ t = b.name ∧ ((rest = [] ∧ r = .goes b) ∨ Does E s b rest r)) ∨
    (∃ a, Above a pl ∧ (t = a.name ∨ t = bs!"..") ∧ ((rest = [] ∧ r = .goes a) ∨ Does E s a rest r)) := by
  constructor
  · intro h
    generalize hk : t :: rest = toks at h
    cases h with
    | here h1 h2 => cases hk; exact .inl ⟨_, h1, rfl, h2⟩
    | down h1 => cases hk; exact .inr (.inl ⟨_, h1, rfl, .inl ⟨rfl, rfl⟩⟩)
    | inside h1 h2 => cases hk; exact .inr (.inl ⟨_, h1, rfl, .inr h2⟩)
    | up h1 h2 => cases hk; exact .inr (.inr ⟨_, h1, h2, .inl ⟨rfl, rfl⟩⟩)
    | outside h1 h2 h3 => cases hk; exact .inr (.inr ⟨_, h1, h2, .inr h3⟩)
  · rintro (⟨⟨_, _⟩, h1, rfl, h2⟩ | ⟨b, h1, rfl, ⟨rfl, rfl⟩ | h2⟩ | ⟨a, h1, h2, ⟨rfl, rfl⟩ | h3⟩)
    · exact .here h1 h2
    · exact .down h1
    · exact .inside h1 h2
    · exact .up h1 h2
    · exact .outside h1 h2 h3

/-! ### The search -/

/-- In the menu, then in those above. -/
def go (A : App St τ) (g : Bool) (pl : Place) (toks : List Str) (w : W τ) : Res St τ :=
  match path g pl with
  | [] => .ok (w, .notFound)
  | (m, k) :: anc =>
    goOn w (scanEntries A toks (fun m' k' w => handleCommand A toks false ((m', k') :: (m, k) :: anc) w) k w) (fun w => handleCommand A toks true anc w)

theorem handle_eq (A : App St τ) (t : Str) (rest : List Str) (v : Bool) (m : MenuInfo) (k : Forest) (anc : Path) (w : W τ) (hd : w.dis m.id = false) :
    handleCommand A (t :: rest) v ((m, k) :: anc) w =
      if t = m.name ∨ (v = true ∧ t = bs!"..") then
        if rest = [] then .ok ({ w with current := m.id }, .found)
        else goOn w (scanEntries A rest (fun m' k' w => handleCommand A rest false ((m', k') :: (m, k) :: anc) w) k w) (fun w => handleCommand A rest true anc w)
      else .ok (w, .notFound) := by
  rw [handleCommand, if_neg (by simp [hd])]

/-- The result agrees with the table. -/
def Agrees (E : Env) (s : Seat) (pl : Place) (toks : List Str) (w : W τ) (x : Res St τ) : Prop :=
  (∃ r w', Does E s pl toks r ∧ x = .ok (w', outcome r) ∧ Step s r w w') ∨ ((∀ r, ¬ Does E s pl toks r) ∧ x = .ok (w, .notFound))

/-- A menu, entered by its name, in terms of the search in it. -/
theorem handle_agrees {A : App St τ} {s : Seat} {t : Str} {rest : List Str} {v : Bool} {pl : Place} {w : W τ} (hw : At s w) (ih : rest ≠ [] → Agrees E s pl rest w (go A s.gone pl rest w)) :
    ∃ anc m k, path s.gone pl = (m, k) :: anc ∧ m.name = pl.name ∧
    (((t = pl.name ∨ (v = true ∧ t = bs!"..")) ∧ ((∃ r w', ((rest = [] ∧ r = .goes pl) ∨ Does E s pl rest r) ∧ handleCommand A (t :: rest) v (path s.gone pl) w = .ok (w', outcome r) ∧ Step s r w w') ∨
      ((∀ r, ¬ ((rest = [] ∧ r = .goes pl) ∨ Does E s pl rest r)) ∧ handleCommand A (t :: rest) v (path s.gone pl) w = .ok (w, .notFound)))) ∨
    (¬ (t = pl.name ∨ (v = true ∧ t = bs!"..")) ∧ handleCommand A (t :: rest) v (path s.gone pl) w = .ok (w, .notFound))) := by
  have hp : ∃ anc m k, path s.gone pl = (m, k) :: anc ∧ m.name = pl.name ∧ m.id = pl.id := by cases pl <;> exact ⟨_, _, _, rfl, rfl, rfl⟩
  obtain ⟨anc, m, k, e1, e2, e3⟩ := hp
  refine ⟨anc, m, k, e1, e2, ?_⟩
  have hd : w.dis m.id = false := hw.others _ (by rw [e3]; cases pl <;> decide) (by rw [e3]; cases pl <;> decide)
  rw [e1, handle_eq A _ _ _ _ _ _ _ hd, e2]
  by_cases ht : t = pl.name ∨ (v = true ∧ t = bs!"..")
  · rw [if_pos ht]
    refine .inl ⟨ht, ?_⟩
    by_cases hr : rest = []
    · rw [if_pos hr, e3]
      exact .inl ⟨_, _, .inl ⟨hr, rfl⟩, rfl, step_goes hw pl⟩
    · rw [if_neg hr]
      have := ih hr
      simp only [Agrees, go, e1] at this
      rcases this with ⟨r, w', g1, g2, g3⟩ | ⟨g1, g2⟩
      · exact .inl ⟨r, w', .inr g1, g2, g3⟩
      · refine .inr ⟨?_, g2⟩
        rintro r (⟨h, _⟩ | h)
        · exact hr h
        · exact g1 r h
  · rw [if_neg ht]
    exact .inr ⟨ht, rfl⟩

theorem go_eq (A : App St τ) (s : Seat) (pl : Place) (toks : List Str) (w : W τ) :
    ∃ m anc, path s.gone pl = (m, kids s.gone pl) :: anc ∧
      go A s.gone pl toks w = goOn w (scanEntries A toks (fun m' k' w => handleCommand A toks false ((m', k') :: path s.gone pl) w) ((pairs E s pl).foldr (fun x f => .cmd x.1 f) (below pl)) w) (fun w => handleCommand A toks true anc w) := by
  rw [← kids_pairs]
  cases pl <;> exact ⟨_, _, rfl, rfl⟩

/-- The search in the menu below agrees with the table. -/
def Lower (E : Env) (A : App St τ) (s : Seat) (pl : Place) (t : Str) (rest : List Str) (w : W τ) : Prop :=
  (∃ r w', (∃ b, Above pl b ∧ t = b.name ∧ ((rest = [] ∧ r = .goes b) ∨ Does E s b rest r)) ∧
    scanEntries A (t :: rest) (fun m' k' w => handleCommand A (t :: rest) false ((m', k') :: path s.gone pl) w) (below pl) w = .ok (w', outcome r) ∧ Step s r w w') ∨
  ((∀ r, ¬ ∃ b, Above pl b ∧ t = b.name ∧ ((rest = [] ∧ r = .goes b) ∨ Does E s b rest r)) ∧
    scanEntries A (t :: rest) (fun m' k' w => handleCommand A (t :: rest) false ((m', k') :: path s.gone pl) w) (below pl) w = .ok (w, .notFound))

/-- **The search agrees with the table.** -/
theorem go_agrees (hq : Quiet E) {s : Seat} (n : Nat) : ∀ (toks : List Str), toks.length ≤ n → toks ≠ [] → Fine E.p toks → ∀ (pl : Place) (w : W τ), At s w →
    Agrees E s pl toks w (go (app E store stored telnet) s.gone pl toks w) := by
  induction n with
  | zero => intro toks h1 h2; exact absurd (List.length_eq_zero_iff.1 (by omega)) h2
  | succ n ih =>
    intro toks hn hne hf pl w hw
    match toks, hn, hne, hf with
    | t :: rest, hn, _, hf =>
    have hn : rest.length ≤ n := by simpa using hn
    have ihr : ∀ q, rest ≠ [] → Agrees E s q rest w (go (app E store stored telnet) s.gone q rest w) := fun q h => ih rest hn h (fine_tail _ hf) q w hw
    obtain ⟨m, anc, hp, hgo⟩ := go_eq E (app E store stored telnet) s pl (t :: rest) w
    rw [hgo]
    rcases scan_rows (A := app E store stored telnet) (s := s) (t := t) (rest := rest) (fine_tail _ hf) (fun m' k' w => handleCommand (app E store stored telnet) (t :: rest) false ((m', k') :: path s.gone pl) w) (below pl) hw (pairs E s pl) (pairs_serve E hq s pl)
      with ⟨row, hm, r, w', h1, h2, h3, h4⟩ | ⟨h1, h2⟩
    · rw [h3, goOn_found]
      exact .inl ⟨r, w', does_cons.2 (.inl ((rows_pairs E s pl t rest r).1 ⟨row, hm, h1, h2⟩)), rfl, h4⟩
    rw [h2]
    have hrow : ∀ r, ¬ ∃ row ∈ rows E s pl, t = row.1 ∧ row.2 rest r := by
      intro r hr
      obtain ⟨row, a, b, c⟩ := (rows_pairs E s pl t rest r).2 hr
      exact h1 row a r b c
    -- the menu below
    have hbelow : Lower E (app E store stored telnet) s pl t rest w := by
      have one : ∀ q, (∀ b, Above pl b ↔ b = q) → (∃ mi k, below pl = .menu mi k .nil ∧ path s.gone q = (mi, k) :: path s.gone pl) → Lower E (app E store stored telnet) s pl t rest w := by
        intro q hab ⟨mi, k, e1, e2⟩
        unfold Lower
        obtain ⟨_, _, _, _, _, hh⟩ := handle_agrees E (A := app E store stored telnet) (t := t) (rest := rest) (v := false) (pl := q) hw (ihr q)
        rw [e1]
        simp only [scanEntries, ← e2]
        rcases hh with ⟨ht, ⟨r, w', g1, g2, g3⟩ | ⟨g1, g2⟩⟩ | ⟨ht, g2⟩
        · rw [g2, goOn_found]
          exact .inl ⟨r, w', ⟨q, (hab q).2 rfl, by simpa using ht, g1⟩, rfl, g3⟩
        · rw [g2, goOn_next]
          refine .inr ⟨?_, rfl⟩
          rintro r ⟨b, hb, _, hx⟩
          cases (hab b).1 hb
          exact g1 r hx
        · rw [g2, goOn_next]
          refine .inr ⟨?_, rfl⟩
          rintro r ⟨b, hb, e, _⟩
          cases (hab b).1 hb
          exact ht (.inl e)
      cases pl with
      | root => exact one .sub (by intro b; simp [Above]) ⟨_, _, rfl, rfl⟩
      | sub => exact one .subsub (by intro b; simp [Above]) ⟨_, _, rfl, rfl⟩
      | subsub =>
        refine .inr ⟨?_, rfl⟩
        rintro r ⟨b, hb, _⟩
        simp [Above] at hb
    rcases hbelow with ⟨r, w', g1, g2, g3⟩ | ⟨g1, g2⟩
    · rw [g2, goOn_found]
      exact .inl ⟨r, w', does_cons.2 (.inr (.inl g1)), rfl, g3⟩
    rw [g2, goOn_next]
    -- the menu above
    have one : ∀ q, (∀ a, Above a pl ↔ a = q) → anc = path s.gone q → Agrees E s pl (t :: rest) w (handleCommand (app E store stored telnet) (t :: rest) true anc w) := by
      intro q hab e
      obtain ⟨_, _, _, _, _, hh⟩ := handle_agrees E (A := app E store stored telnet) (t := t) (rest := rest) (v := true) (pl := q) hw (ihr q)
      rw [e]
      rcases hh with ⟨ht, ⟨r, w', k1, k2, k3⟩ | ⟨k1, k2⟩⟩ | ⟨ht, k2⟩
      · rw [k2]
        exact .inl ⟨r, w', does_cons.2 (.inr (.inr ⟨q, (hab q).2 rfl, by simpa using ht, k1⟩)), rfl, k3⟩
      · rw [k2]
        refine .inr ⟨fun r h => ?_, rfl⟩
        rcases does_cons.1 h with h | h | ⟨a, ha, _, hx⟩
        · exact hrow r h
        · exact g1 r h
        · cases (hab a).1 ha
          exact k1 r hx
      · rw [k2]
        refine .inr ⟨fun r h => ?_, rfl⟩
        rcases does_cons.1 h with h | h | ⟨a, ha, hx, _⟩
        · exact hrow r h
        · exact g1 r h
        · cases (hab a).1 ha
          exact ht (by simpa using hx)
    cases pl with
    | root =>
      have e : anc = [] := by simp only [path] at hp; cases hp; rfl
      rw [e]
      refine .inr ⟨fun r h => ?_, by simp [handleCommand]⟩
      rcases does_cons.1 h with h | h | ⟨a, ha, _⟩
      · exact hrow r h
      · exact g1 r h
      · simp [Above] at ha
    | sub => exact one .root (by intro a; simp [Above]) (by simp only [path] at hp ⊢; cases hp; rfl)
    | subsub => exact one .sub (by intro a; simp [Above]) (by simp only [path] at hp ⊢; cases hp; rfl)

/-- … from the current menu. -/
theorem scan_agrees (hq : Quiet E) {toks : List Str} (ht : toks ≠ []) (hf : Fine E.p toks) {s : Seat} {w : W τ} (hw : At s w) : Agrees E s s.place toks w (scanCurrent (app E store stored telnet) toks w) := by
  have : scanCurrent (app E store stored telnet) toks w = go (app E store stored telnet) s.gone s.place toks w := by
    unfold scanCurrent
    rw [hw.tree, hw.current, locate_place]
    have e : w.dis s.place.id = false := hw.others _ (by cases s.place <;> decide) (by cases s.place <;> decide)
    revert e
    cases s.place <;> intro e
    · have e : w.dis rootInfo.id = false := e
      simp only [path, scanCmds, go, e, Bool.false_eq_true, if_false, ht]
    · have e : w.dis subInfo.id = false := e
      simp only [path, scanCmds, go, e, Bool.false_eq_true, if_false, ht]
    · have e : w.dis subsubInfo.id = false := e
      simp only [path, scanCmds, go, e, Bool.false_eq_true, if_false, ht]
  rw [this]
  exact go_agrees E hq toks.length toks (Nat.le_refl _) ht hf s.place w hw

end

end Verif.Showcase
