import Verif.Proofs.Plugins
import Verif.Props.Saved
import Verif.Props.FromString

set_option linter.unusedSimpArgs false

/-!
# C106: the plugin manager
-/

namespace Verif.Plugged
open Spec Plugins Props
open FromString (Value)

/-! ### Facts about every execution -/

theorem ran_wf {pf : Platform} {b : Bool} {st : Style} {w : PWorld} (h : Ran pf b st w) : History.WF w.hist :=
  (exec_counted (Plugins.app pf b) 0 (w := boot st) ⟨History.wf_init 200, show 1 ≤ (History.init 200).maxSize by decide, show History.base (History.init 200) ≤ 0 + (History.init 200).commands by decide⟩ h).wf

theorem ran_record {pf : Platform} {b : Bool} {st : Style} {w : PWorld} (h : Ran pf b st w) :
    w.app.loaded.map (·.plug) = told [] w.log ∧ (w.app.ub = true ↔ ∃ e ∈ w.log, Breaks pf e) ∧ Offers w (chosen none w.log) ∧ ((∀ e ∈ w.log, ¬ Pulls e) → w.current ∈ w.tree.menuIds) := by
  obtain ⟨_, evs, k1, k2, k3, k4, k5⟩ := ran_keeps h (good_boot st)
  have he : w.log = evs := k1
  subst he
  refine ⟨k2, ?_, k4 none ⟨rfl, rfl⟩, k5 (by show (0 : Nat) ∈ _; simp [Tree.menuIds, boot, rootInfo])⟩
  rw [k3]
  constructor
  · rintro (h | h)
    · cases h
    · exact h
  · exact .inr

/-- **C106** Whatever is typed, the menus are those of the root and, below it, one for each plugin loaded and not unloaded since, in the order of loading. -/
theorem C106_menus {pf : Platform} {b : Bool} {st : Style} {w : PWorld} (h : Ran pf b st w) :
    ∃ l : List Item, l.map (·.plug) = told [] w.log ∧ (l.map (·.menu)).Nodup ∧ w.tree = ⟨rootInfo, rootKids (kidsOf l)⟩ := by
  have hg := ran_good h
  refine ⟨w.app.loaded, (ran_record h).1, ?_, hg.tree⟩
  have hs := hg.spaced
  rw [List.nodup_iff_pairwise_ne, List.pairwise_map]
  exact hs.imp (fun h => by omega)

/-- **C106** (partial) Unless `unload` has been called with the name of the plugin in whose menu the session was, the prompt can be shown, and no line that is typed makes the session use a menu that is gone.
    Missing: that call, see `C106_pull` and `C106_refuted_pull`. -/
theorem C106_safe_partial {pf : Platform} {b : Bool} {st : Style} {w : PWorld} (h : Ran pf b st w) (hp : ∀ e ∈ w.log, ¬ Pulls e) :
    (∃ w', prompt w = .ok w') ∧ ∀ fuel line f, feed (Plugins.app pf b) fuel line w = .error f → f ≠ .ub .dangling ∧ f ≠ .ub .iteratorInvalidation := by
  have hc := (ran_record h).2.2.2 hp
  refine ⟨?_, fun fuel line f hf => C20_feed_partial _ (plugins_tame pf b) fuel line w hc f hf⟩
  unfold Verif.prompt
  split
  · exact ⟨_, rfl⟩
  · cases hl : w.tree.locate w.current with
    | none => exact absurd hl (Tree.locate_some hc)
    | some p =>
      obtain ⟨m, k, q, rfl, _⟩ := Tree.locate_self hl
      exact ⟨_, rfl⟩

/-- **C106** A command of a plugin has had undefined behaviour exactly if some sum or difference did not fit an `int`, or `upper` was given a character with a negative value other than `EOF`. -/
theorem C106_undefined {pf : Platform} {b : Bool} {st : Style} {w : PWorld} (h : Ran pf b st w) : w.app.ub = true ↔ ∃ e ∈ w.log, Breaks pf e := (ran_record h).2.1

/-- **C106** Of `color` and `nocolor`, the one called last is disabled and the other enabled; both are enabled before. -/
theorem C106_colors {pf : Platform} {b : Bool} {st : Style} {w : PWorld} (h : Ran pf b st w) : Offers w (chosen none w.log) := (ran_record h).2.2.1

/-! ### Lines typed in the root menu -/

theorem Good.root {w : PWorld} (h : Good w) : w.tree.locate 0 = some [(rootInfo, rootKids (kidsOf w.app.loaded))] := by
  rw [h.tree]; rfl

theorem good_hist {w : PWorld} (h : Good w) (x : History.History) : Good { w with hist := x } := good_same h rfl rfl rfl rfl rfl

/-- A line that one entry answers. -/
theorem feed_answered {pf : Platform} {b : Bool} {w : PWorld} {line : Str} {toks : List Str} {r : PWorld → PWorld} (hw : History.WF w.hist) (hl : Lex.Line line toks) (ht : UserLine pf toks) (fuel : Nat)
    (hs : ∀ x, scanCurrent (Plugins.app pf b) toks { w with hist := x } = .ok (r { w with hist := x }, .found)) : ∃ x, feed (Plugins.app pf b) (fuel + 1) line w = .ok (r { w with hist := x }, none) := by
  obtain ⟨h1, a, _⟩ := History.newCommand_ok hw line
  refine ⟨h1, ?_⟩
  rw [feed_user (A := Plugins.app pf b) hl ht fuel w a]
  simp only [userPart, hs h1, catchAll]

theorem root_scan {pf : Platform} {b : Bool} {w : PWorld} (hg : Good w) (hc : w.current = 0) {t : Str} {ts : List Str} {w' : PWorld}
    (hs : ∀ sub, scanEntries (Plugins.app pf b) (t :: ts) sub (rootKids (kidsOf w.app.loaded)) w = .ok (w', .found)) : scanCurrent (Plugins.app pf b) (t :: ts) w = .ok (w', .found) := by
  unfold scanCurrent
  rw [hc, hg.root]
  simp only [scanCmds]
  rw [if_neg (show ¬ w.dis rootInfo.id = true by simp [rootInfo, hg.others 0 (by decide) (by decide)]), hs]
  rfl

def loadCmd : Cmd := Plugins.cmd 3 bs!"load" [bs!"plugin_name"] (.variadic [str]) .load bs!"Load the plugin specified"

theorem load_scan {pf : Platform} {b : Bool} {w : PWorld} (hg : Good w) (n : Str) (sub : MenuInfo → Forest → PWorld → Res Plugins.St Storage.Volatile) :
    scanEntries (Plugins.app pf b) [bs!"load", n] sub (rootKids (kidsOf w.app.loaded)) w = .ok ((w.effect (load b w.app n)).note (.ran loadCmd [.str n] w.snap none), .found) := by
  unfold rootKids
  rw [scan_miss (by decide), scan_miss (by decide)]
  refine scan_hit (ps := [str]) (vals := [.str n]) (hg.others 3 (by decide) (by decide)) rfl rfl rfl rfl ?_
  exact call_exn pf b w.app .load [.str n]

/-- The first plugin of this kind that is loaded. -/
abbrev First (w : PWorld) (p : Plug) (e : Item) : Prop := w.app.loaded.find? (fun x => x.plug == p) = some e

theorem First.mem {w : PWorld} {p : Plug} {e : Item} (h : First w p e) : e ∈ w.app.loaded := List.mem_of_find?_eq_some h
theorem First.plug {w : PWorld} {p : Plug} {e : Item} (h : First w p e) : e.plug = p := by simpa using List.find?_some h

theorem plug_name {p q : Plug} : p.name = q.name ↔ p = q := by cases p <;> cases q <;> simp [Plug.name]

theorem Good.on {w : PWorld} (h : Good w) {e : Item} (he : e ∈ w.app.loaded) : w.dis e.menu = false := by
  have := (h.above e he).1
  exact h.others e.menu (fun hh => by have : e.menu = 5 := hh; omega) (fun hh => by have : e.menu = 6 := hh; omega)

/-- Looking for a plugin's menu among those of the plugins. -/
theorem kids_down {pf : Platform} {b : Bool} {w : PWorld} {p : Plug} {inner : List Str} {anc : Path} {e : Item} (l : List Item) (hf : l.find? (fun x => x.plug == p) = some e) {r : Res Plugins.St Storage.Volatile} (hr : ∀ w', r ≠ .ok (w', .notFound))
    (hh : handleCommand (Plugins.app pf b) (p.name :: inner) false ((p.info e.menu, p.kids e.menu) :: anc) w = r) :
    scanEntries (Plugins.app pf b) (p.name :: inner) (fun m k w => handleCommand (Plugins.app pf b) (p.name :: inner) false ((m, k) :: anc) w) (kidsOf l) w = r := by
  induction l with
  | nil => cases hf
  | cons x l ih =>
    rw [kidsOf_cons, Item.forest, scanEntries]
    by_cases hx : x.plug = p
    · have : x = e := by simpa [List.find?_cons, hx] using hf
      subst this
      rw [hx, hh]
      unfold goOn
      split
      · exact absurd rfl (hr _)
      · rfl
    · have hf : l.find? (fun x => x.plug == p) = some e := by simpa [List.find?_cons, hx] using hf
      have : handleCommand (Plugins.app pf b) (p.name :: inner) false ((x.plug.info x.menu, x.plug.kids x.menu) :: anc) w = .ok (w, .notFound) := by
        rw [handleCommand]
        split
        · rfl
        · rw [if_neg (by simp only [Plug.info, Bool.false_eq_true, false_and, or_false, plug_name]; exact fun h => hx h.symm)]
      rw [this]
      simp only [goOn, if_true]
      exact ih hf

theorem kids_none {pf : Platform} {b : Bool} {w : PWorld} {p : Plug} {inner : List Str} {anc : Path} (l : List Item) (hf : l.find? (fun x => x.plug == p) = none) :
    scanEntries (Plugins.app pf b) (p.name :: inner) (fun m k w => handleCommand (Plugins.app pf b) (p.name :: inner) false ((m, k) :: anc) w) (kidsOf l) w = .ok (w, .notFound) := by
  induction l with
  | nil => rfl
  | cons x l ih =>
    rw [kidsOf_cons, Item.forest, scanEntries]
    have hf : ¬ x.plug = p ∧ l.find? (fun x => x.plug == p) = none := by
      rw [List.find?_eq_none] at hf
      refine ⟨by simpa using hf x (by simp), List.find?_eq_none.2 (fun y hy => hf y (by simp [hy]))⟩
    have : handleCommand (Plugins.app pf b) (p.name :: inner) false ((x.plug.info x.menu, x.plug.kids x.menu) :: anc) w = .ok (w, .notFound) := by
      rw [handleCommand]
      split
      · rfl
      · rw [if_neg (by simp only [Plug.info, Bool.false_eq_true, false_and, or_false, plug_name]; exact fun h => hf.1 h.symm)]
    rw [this]
    simp only [goOn, if_true]
    exact ih hf.2

theorem rootKids_skip {pf : Platform} {b : Bool} {w : PWorld} {p : Plug} {inner : List Str} {sub : MenuInfo → Forest → PWorld → Res Plugins.St Storage.Volatile} (f : Forest) :
    scanEntries (Plugins.app pf b) (p.name :: inner) sub (rootKids f) w = scanEntries (Plugins.app pf b) (p.name :: inner) sub f w := by
  unfold rootKids
  rw [scan_miss, scan_miss, scan_miss, scan_miss, scan_miss, scan_miss] <;> (cases p <;> decide)

/-- A line `toks` is understood as the command `inner` of the menu of the plugin `e`: it is typed in that menu, or in the root menu with the plugin's name before it, or in the menu of some plugin with `cli` or `..` and the name before it. -/
inductive Typed (w : PWorld) : Item → List Str → List Str → Prop
  | here {e inner} : e ∈ w.app.loaded → w.current = e.menu → Typed w e inner inner
  | below {p e inner} : First w p e → w.current = 0 → Typed w e (p.name :: inner) inner
  | across {p e e' up inner} : First w p e → e' ∈ w.app.loaded → w.current = e'.menu → up = bs!"cli" ∨ up = bs!".." → Typed w e (up :: p.name :: inner) inner

theorem Typed.mem {w : PWorld} {e : Item} {toks inner : List Str} (h : Typed w e toks inner) : e ∈ w.app.loaded := by
  cases h with
  | here h => exact h
  | below h => exact h.mem
  | across h => exact h.mem

/-- The entries of a plugin's menu do not answer `cli` or `..`. -/
theorem up_first {pf : Platform} {b : Bool} {w : PWorld} (p : Plug) (i : Nat) (up : Str) (hup : up = bs!"cli" ∨ up = bs!"..") (ts : List Str) (sub : MenuInfo → Forest → PWorld → Res Plugins.St Storage.Volatile) :
    scanEntries (Plugins.app pf b) (up :: ts) sub (p.kids i) w = .ok (w, .notFound) := by
  cases p <;> rcases hup with rfl | rfl <;> (unfold Plug.kids; rw [scan_miss (by simp [Plugins.cmd]), scan_miss (by simp [Plugins.cmd]), scan_miss (by simp [Plugins.cmd])]; rfl)

/-- Where a command of a plugin is typed makes no difference. -/
theorem typed_scan {pf : Platform} {b : Bool} {w w' : PWorld} (hg : Good w) {e : Item} {toks inner : List Str} (ht : Typed w e toks inner) (hi : inner ≠ [])
    (hs : ∀ sub, scanEntries (Plugins.app pf b) inner sub (e.plug.kids e.menu) w = .ok (w', .found)) : scanCurrent (Plugins.app pf b) toks w = .ok (w', .found) := by
  have he := hg.on ht.mem
  have h0 : ¬ w.dis rootInfo.id = true := by simp [rootInfo, hg.others 0 (by decide) (by decide)]
  have step : ∀ anc, handleCommand (Plugins.app pf b) (e.plug.name :: inner) false ((e.plug.info e.menu, e.plug.kids e.menu) :: anc) w = .ok (w', .found) := by
    intro anc
    rw [handleCommand, if_neg (show ¬ w.dis (e.plug.info e.menu).id = true by simp [Plug.info, he]), if_pos (by simp [Plug.info]), if_neg hi, hs]
    rfl
  cases ht with
  | here hm hc =>
    unfold scanCurrent
    rw [hc, hg.locate hm]
    simp only [scanCmds, hs]
    rw [if_neg (show ¬ w.dis (e.plug.info e.menu).id = true by simp [Plug.info, he])]
    rfl
  | below hf hc =>
    cases hf.plug
    unfold scanCurrent
    rw [hc, hg.root]
    simp only [scanCmds]
    rw [if_neg h0, rootKids_skip, kids_down _ hf (by simp) (step _)]
    rfl
  | @across p e e' up inner hf hm hc hup =>
    cases hf.plug
    unfold scanCurrent
    rw [hc, hg.locate hm]
    simp only [scanCmds, up_first _ _ up hup]
    rw [if_neg (show ¬ w.dis (e'.plug.info e'.menu).id = true by simp [Plug.info, hg.on hm])]
    simp only [goOn, if_true]
    rw [if_neg (by simp), handleCommand, if_neg h0, if_pos (by rcases hup with rfl | rfl <;> simp [rootInfo]), if_neg (by simp), rootKids_skip, kids_down _ hf (by simp) (step _)]
    rfl

theorem typed_hist {w : PWorld} {e : Item} {toks inner : List Str} (h : Typed w e toks inner) (x : History.History) : Typed { w with hist := x } e toks inner := by
  cases h with
  | here a c => exact .here a c
  | below a c => exact .below a c
  | across a c d f => exact .across a c d f

theorem typed_user {pf : Platform} {w : PWorld} {e : Item} {toks : List Str} {t : Str} {ts : List Str} (h : Typed w e toks (t :: ts)) (ht : t ∉ [bs!"help", bs!"exit", bs!"history", bs!"!"]) : UserLine pf toks := by
  cases h with
  | here => exact not_global ht
  | @below p => exact not_global (by cases p <;> decide)
  | across _ _ _ hup => exact not_global (by rcases hup with rfl | rfl <;> decide)

/-- A plugin's command calls its function, wherever it is typed. -/
theorem typed_feed {pf : Platform} {b : Bool} {st : Style} {w : PWorld} (h : Ran pf b st w) {e : Item} {line : Str} {toks : List Str} {t : Str} {ts : List Str} (hl : Lex.Line line toks) (ht : Typed w e toks (t :: ts))
    (hn : t ∉ [bs!"help", bs!"exit", bs!"history", bs!"!"]) (fuel : Nat) (c : Cmd) (vals : List Value)
    (hs : ∀ (w : PWorld) sub, (∀ i : Nat, 7 ≤ i → w.dis i = false) → scanEntries (Plugins.app pf b) (t :: ts) sub (e.plug.kids e.menu) w = .ok ((w.effect ((Plugins.app pf b).handler c.fn w.app vals)).note (.ran c vals w.snap none), .found)) :
    ∃ x, feed (Plugins.app pf b) (fuel + 1) line w = .ok ((({ w with hist := x } : PWorld).effect ((Plugins.app pf b).handler c.fn w.app vals)).note (.ran c vals w.snap none), none) := by
  have hg := ran_good h
  refine feed_answered (r := fun w => (w.effect ((Plugins.app pf b).handler c.fn w.app vals)).note (.ran c vals w.snap none)) (ran_wf h) hl (typed_user ht hn) fuel (fun x => ?_)
  exact typed_scan (good_hist hg x) (typed_hist ht x) (by simp) (fun sub => hs _ sub (fun i hi => hg.others i (fun hh => by have : i = 5 := hh; omega) (fun hh => by have : i = 6 := hh; omega)))

/-- The line is answered with this text, and nothing else changes that one can see. -/
structure Answers (w w' : PWorld) (text : Str) : Prop where
  io : w'.io = w.io.put text
  tree : w'.tree = w.tree
  dis : w'.dis = w.dis
  current : w'.current = w.current
  app : w'.app = w.app
  exit : w'.exit = w.exit

theorem scan_short {σ τ : Type} {A : App σ τ} {c : Cmd} {ps : List Param} {t : Str} {args : List Str} {w : World σ τ} {sub : MenuInfo → Forest → World σ τ → Res σ τ} {rest : Forest} (hk : c.kind = .variadic ps) (hl : args.length ≠ ps.length) :
    scanEntries A (t :: args) sub (.cmd c rest) w = scanEntries A (t :: args) sub rest w := by
  have : execCmd A c (t :: args) w = .ok (w, .notFound) := by
    unfold execCmd
    split
    · rfl
    · rw [hk]; simp only [List.length_cons]; rw [if_pos (by omega)]
  rw [scanEntries, this]; simp [goOn]

theorem scan_free {σ τ : Type} {A : App σ τ} {c : Cmd} {t : Str} {args : List Str} {w : World σ τ} {sub : MenuInfo → Forest → World σ τ → Res σ τ} {rest : Forest} (hd : w.dis c.id = false) (hn : c.name = t) (hk : c.kind = .freeform)
    (hx : (A.handler c.fn w.app (args.map Value.str)).exn = none) :
    scanEntries A (t :: args) sub (.cmd c rest) w = .ok ((w.effect (A.handler c.fn w.app (args.map Value.str))).note (.ran c (args.map Value.str) w.snap none), .found) := by
  have : execCmd A c (t :: args) w = .ok ((w.effect (A.handler c.fn w.app (args.map Value.str))).note (.ran c (args.map Value.str) w.snap none), .found) := by
    unfold execCmd
    rw [if_neg (by simp [hd]), hk]
    simp only [hn, if_true, callHandler, hx]
  rw [scanEntries, this]; rfl

/-! #### Numbers -/

theorem digit_ofNat {n : Nat} (h : n < 10) : Number.Digit (UInt8.ofNat (48 + n)) ∧ (UInt8.ofNat (48 + n)).toNat = 48 + n := by
  have : (UInt8.ofNat (48 + n)).toNat = 48 + n := by rw [UInt8.toNat_ofNat']; omega
  refine ⟨⟨?_, ?_⟩, this⟩
  · rw [UInt8.le_iff_toNat_le, this]; show 48 ≤ _; omega
  · rw [UInt8.le_iff_toNat_le, this]; show _ ≤ 57; omega

theorem value_snoc (s : Str) (c : Byte) : Number.value (s ++ [c]) = Number.value s * 10 + (c.toNat - 48) := by
  induction s with
  | nil => simp [Number.value]
  | cons x s ih =>
    simp only [List.cons_append, Number.value, ih, List.length_append, List.length_cons, List.length_nil, Nat.zero_add, Nat.pow_succ]
    rw [Nat.add_mul, Nat.mul_assoc]; omega

theorem decimal_spells (n : Nat) : Number.Digits (decimal n) ∧ Number.value (decimal n) = n := by
  induction n using Nat.strongRecOn with
  | ind n ih =>
    rw [decimal]
    split
    · rename_i h
      obtain ⟨d, v⟩ := digit_ofNat h
      refine ⟨⟨by simp, by simpa using d⟩, ?_⟩
      simp only [Number.value, v, List.length_nil, Nat.pow_zero]; omega
    · obtain ⟨⟨a, b⟩, c⟩ := ih (n / 10) (by omega)
      obtain ⟨d, v⟩ := digit_ofNat (Nat.mod_lt n (by decide : 0 < 10))
      refine ⟨⟨by simp, ?_⟩, ?_⟩
      · intro x hx
        rcases List.mem_append.1 hx with hx | hx
        · exact b x hx
        · cases List.mem_singleton.1 hx; exact d
      · rw [value_snoc, c, v]; omega

theorem number_spells (x : Int) : Number.SpellsInt (number x) x := by
  obtain ⟨d, v⟩ := decimal_spells x.natAbs
  unfold number
  split
  · exact ⟨_, d, .inr (.inr ⟨rfl, by rw [v]; omega⟩)⟩
  · exact ⟨_, d, .inl ⟨rfl, by rw [v]; omega⟩⟩

/-- The text shows the number: it spells it, and there is no shorter way to do it (no leading zeros, no `+`, no `-0`). -/
def Shows (s : Str) (x : Int) : Prop := Number.SpellsInt s x ∧ ∀ t, Number.SpellsInt t x → s.length ≤ t.length

theorem value_lt {s : Str} (h : ∀ c ∈ s, Number.Digit c) : Number.value s < 10 ^ s.length := by
  induction s with
  | nil => simp [Number.value]
  | cons c s ih =>
    have h1 := ih (fun x hx => h x (List.mem_cons_of_mem _ hx))
    have h2 : c.toNat - 48 ≤ 9 := by have : 48 ≤ c.toNat ∧ c.toNat ≤ 57 := h c (List.mem_cons_self ..); omega
    simp only [Number.value, List.length_cons, Nat.pow_succ]
    have := Nat.mul_le_mul_right (10 ^ s.length) h2
    omega

theorem decimal_least (n : Nat) : (decimal n).length = 1 ∨ 10 ^ ((decimal n).length - 1) ≤ n := by
  induction n using Nat.strongRecOn with
  | ind n ih =>
    rw [decimal]
    split
    · exact .inl rfl
    · rename_i h
      refine .inr ?_
      simp only [List.length_append, List.length_singleton, Nat.add_sub_cancel]
      rcases ih (n / 10) (by omega) with hl | hl
      · rw [hl]; omega
      · have hp : 0 < (decimal (n / 10)).length := by
          rcases Nat.eq_zero_or_pos (decimal (n / 10)).length with h0 | h0
          · exact absurd (List.length_eq_zero_iff.1 h0) (decimal_spells _).1.1
          · exact h0
        obtain ⟨k, hk⟩ : ∃ k, (decimal (n / 10)).length = k + 1 := ⟨_, (Nat.sub_add_cancel hp).symm⟩
        rw [hk] at hl ⊢
        rw [Nat.pow_succ]
        simp only [Nat.add_sub_cancel] at hl
        omega

theorem decimal_short {n : Nat} {ds : Str} (hd : Number.Digits ds) (hv : Number.value ds = n) : (decimal n).length ≤ ds.length := by
  have h0 : ds.length ≠ 0 := fun h => hd.1 (List.length_eq_zero_iff.1 h)
  rcases decimal_least n with h | h
  · omega
  · have := value_lt hd.2
    rw [hv] at this
    have := Nat.lt_of_le_of_lt h this
    have := (Nat.pow_lt_pow_iff_right (by decide : 1 < 10)).1 this
    omega

theorem number_shows (x : Int) : Shows (number x) x := by
  refine ⟨number_spells x, ?_⟩
  rintro t ⟨ds, hd, h⟩
  unfold number
  split
  · rcases h with ⟨_, hx⟩ | ⟨_, hx⟩ | ⟨rfl, hx⟩
    · omega
    · omega
    · have := decimal_short hd (n := x.natAbs) (by omega)
      simp only [List.length_cons]; omega
  · rcases h with ⟨rfl, hx⟩ | ⟨rfl, hx⟩ | ⟨rfl, hx⟩ <;> have := decimal_short hd (n := x.natAbs) (by omega) <;> (try simp only [List.length_cons]) <;> omega

/-- A token spells an `int`; a platform on which overflow of `unsigned` types is checked rejects the minus sign (C05). -/
structure Reads (pf : Platform) (s : Str) (x : Int) : Prop where
  spells : Number.SpellsInt s x
  low : -2 ^ 31 ≤ x
  high : x < 2 ^ 31
  plain : pf.strictOverflow = false ∨ s.head? ≠ some b%'-'

theorem Reads.converts {pf : Platform} {s : Str} {x : Int} (h : Reads pf s x) : FromString.fromString pf (.signed .w32) s = .ok (.int x) := by
  refine (C05_signed_exact_partial pf .w32 s (.int x) (h.plain.imp id .inr)).2 ⟨x, rfl, h.spells, ?_, ?_⟩
  · have := h.low; simp only [FromString.Width.card]; omega
  · have := h.high; simp only [FromString.Width.card]; omega

/-- A command that writes, wherever it is typed. -/
theorem typed_writes {pf : Platform} {b : Bool} {st : Style} {w : PWorld} (h : Ran pf b st w) {e : Item} {line : Str} {toks : List Str} {t : Str} {ts : List Str} (hl : Lex.Line line toks) (ht : Typed w e toks (t :: ts))
    (hn : t ∉ [bs!"help", bs!"exit", bs!"history", bs!"!"]) (fuel : Nat) (c : Cmd) (vals : List Value) (text : Str) (hc : (Plugins.app pf b).handler c.fn w.app vals = writes w.app text)
    (hs : ∀ (w : PWorld) sub, (∀ i : Nat, 7 ≤ i → w.dis i = false) → scanEntries (Plugins.app pf b) (t :: ts) sub (e.plug.kids e.menu) w = .ok ((w.effect ((Plugins.app pf b).handler c.fn w.app vals)).note (.ran c vals w.snap none), .found)) :
    ∃ w', feed (Plugins.app pf b) (fuel + 1) line w = .ok (w', none) ∧ Answers w w' text := by
  obtain ⟨x, hf⟩ := typed_feed h hl ht hn fuel c vals hs
  rw [hc] at hf
  exact ⟨_, hf, rfl, rfl, rfl, rfl, rfl, rfl⟩

theorem Typed.seven {pf : Platform} {b : Bool} {st : Style} {w : PWorld} (h : Ran pf b st w) {e : Item} {toks inner : List Str} (ht : Typed w e toks inner) : 7 ≤ e.menu := ((ran_good h).above e ht.mem).1

/-- **C106** `add` with two numbers whose sum fits an `int` writes them and their sum. -/
theorem C106_add {pf : Platform} {b : Bool} {st : Style} {w : PWorld} (h : Ran pf b st w) {e : Item} (hp : e.plug = .arithmetic) {line : Str} {toks : List Str} {s t : Str} {x y : Int} (hl : Lex.Line line toks) (ht : Typed w e toks [bs!"add", s, t])
    (hs : Reads pf s x) (hy : Reads pf t y) (hr : -2 ^ 31 ≤ x + y ∧ x + y < 2 ^ 31) (fuel : Nat) :
    ∃ w' a c d, feed (Plugins.app pf b) (fuel + 1) line w = .ok (w', none) ∧ Shows a x ∧ Shows c y ∧ Shows d (x + y) ∧ Answers w w' (a ++ bs!" + " ++ c ++ bs!" = " ++ d ++ bs!"\n") := by
  have h7 := ht.seven h
  obtain ⟨w', h1, h2⟩ := typed_writes h hl ht (by decide) fuel (Plugins.cmd (e.menu + 1) bs!"add" [bs!"first_term", bs!"second_term"] (.variadic [int, int]) .add2 bs!"Print the sum of the two numbers") [.int x, .int y]
    (number x ++ bs!" + " ++ number y ++ bs!" = " ++ number (x + y) ++ bs!"\n") (by show calculates _ _ _ = _; rw [calculates, if_pos (by simpa [fits] using hr)]) (by
      intro w sub hd
      rw [hp]
      unfold Plug.kids
      refine scan_hit (ps := [int, int]) (vals := [.int x, .int y]) (hd _ (by show 7 ≤ e.menu + 1; omega)) rfl rfl rfl ?_ ?_
      · simp only [convert, int, Plugins.app, hs.converts, hy.converts]; rfl
      · exact call_exn pf b w.app .add2 _)
  exact ⟨w', _, _, _, h1, number_shows _, number_shows _, number_shows _, h2⟩

/-- **C106** `add` with three numbers: the two sums must fit. -/
theorem C106_add3 {pf : Platform} {b : Bool} {st : Style} {w : PWorld} (h : Ran pf b st w) {e : Item} (hp : e.plug = .arithmetic) {line : Str} {toks : List Str} {s t u : Str} {x y z : Int} (hl : Lex.Line line toks)
    (ht : Typed w e toks [bs!"add", s, t, u]) (hs : Reads pf s x) (hy : Reads pf t y) (hz : Reads pf u z) (hr : -2 ^ 31 ≤ x + y ∧ x + y < 2 ^ 31) (hr' : -2 ^ 31 ≤ x + y + z ∧ x + y + z < 2 ^ 31) (fuel : Nat) :
    ∃ w' a c d f, feed (Plugins.app pf b) (fuel + 1) line w = .ok (w', none) ∧ Shows a x ∧ Shows c y ∧ Shows d z ∧ Shows f (x + y + z) ∧
      Answers w w' (a ++ bs!" + " ++ c ++ bs!" + " ++ d ++ bs!" = " ++ f ++ bs!"\n") := by
  have h7 := ht.seven h
  obtain ⟨w', h1, h2⟩ := typed_writes h hl ht (by decide) fuel (Plugins.cmd (e.menu + 2) bs!"add" [] (.variadic [int, int, int]) .add3 bs!"Print the sum of the three numbers") [.int x, .int y, .int z]
    (number x ++ bs!" + " ++ number y ++ bs!" + " ++ number z ++ bs!" = " ++ number (x + y + z) ++ bs!"\n") (by show calculates _ _ _ = _; rw [calculates, if_pos (by simpa [fits] using ⟨hr, hr'⟩)]) (by
      intro w sub hd
      rw [hp]
      unfold Plug.kids
      rw [scan_short (ps := [int, int]) rfl (by simp)]
      refine scan_hit (ps := [int, int, int]) (vals := [.int x, .int y, .int z]) (hd _ (by show 7 ≤ e.menu + 2; omega)) rfl rfl rfl ?_ ?_
      · simp only [convert, int, Plugins.app, hs.converts, hy.converts, hz.converts]; rfl
      · exact call_exn pf b w.app .add3 _)
  exact ⟨w', _, _, _, _, h1, number_shows _, number_shows _, number_shows _, number_shows _, h2⟩

/-- **C106** `sub` with two numbers whose difference fits an `int`. -/
theorem C106_sub {pf : Platform} {b : Bool} {st : Style} {w : PWorld} (h : Ran pf b st w) {e : Item} (hp : e.plug = .arithmetic) {line : Str} {toks : List Str} {s t : Str} {x y : Int} (hl : Lex.Line line toks) (ht : Typed w e toks [bs!"sub", s, t])
    (hs : Reads pf s x) (hy : Reads pf t y) (hr : -2 ^ 31 ≤ x - y ∧ x - y < 2 ^ 31) (fuel : Nat) :
    ∃ w' a c d, feed (Plugins.app pf b) (fuel + 1) line w = .ok (w', none) ∧ Shows a x ∧ Shows c y ∧ Shows d (x - y) ∧ Answers w w' (a ++ bs!" - " ++ c ++ bs!" = " ++ d ++ bs!"\n") := by
  have h7 := ht.seven h
  obtain ⟨w', h1, h2⟩ := typed_writes h hl ht (by decide) fuel (Plugins.cmd (e.menu + 3) bs!"sub" [bs!"subtrahend", bs!"minuend"] (.variadic [int, int]) .sub bs!"Print the result of a subtraction") [.int x, .int y]
    (number x ++ bs!" - " ++ number y ++ bs!" = " ++ number (x - y) ++ bs!"\n") (by show calculates _ _ _ = _; rw [calculates, if_pos (by simpa [fits] using hr)]) (by
      intro w sub hd
      rw [hp]
      unfold Plug.kids
      rw [scan_miss (by simp [Plugins.cmd]), scan_miss (by simp [Plugins.cmd])]
      refine scan_hit (ps := [int, int]) (vals := [.int x, .int y]) (hd _ (by show 7 ≤ e.menu + 3; omega)) rfl rfl rfl ?_ ?_
      · simp only [convert, int, Plugins.app, hs.converts, hy.converts]; rfl
      · exact call_exn pf b w.app .sub _)
  exact ⟨w', _, _, _, h1, number_shows _, number_shows _, number_shows _, h2⟩

/-- **C106** `reverse` writes the characters in reverse order. -/
theorem C106_reverse {pf : Platform} {b : Bool} {st : Style} {w : PWorld} (h : Ran pf b st w) {e : Item} (hp : e.plug = .strings) {line : Str} {toks : List Str} {s : Str} (hl : Lex.Line line toks) (ht : Typed w e toks [bs!"reverse", s]) (fuel : Nat) :
    ∃ w', feed (Plugins.app pf b) (fuel + 1) line w = .ok (w', none) ∧ Answers w w' (s.reverse ++ bs!"\n") := by
  have h7 := ht.seven h
  exact typed_writes h hl ht (by decide) fuel (Plugins.cmd (e.menu + 1) bs!"reverse" [bs!"string_to_revert"] (.variadic [str]) .reverse bs!"Print the reverse string") [.str s] _ rfl (by
      intro w sub hd
      rw [hp]
      unfold Plug.kids
      exact scan_hit (ps := [str]) (vals := [.str s]) (hd _ (by show 7 ≤ e.menu + 1; omega)) rfl rfl rfl rfl rfl)

/-- A letter of the alphabet in the other case: `a` and `A`. -/
def upperOf (c : Byte) : Byte := if b%'a' ≤ c ∧ c ≤ b%'z' then c - (b%'a' - b%'A') else c

/-- **C106** (partial) `upper` writes the string with its lower-case letters replaced. Missing: characters for which `toupper` is undefined (`C106_refuted_upper`). -/
theorem C106_upper_partial {pf : Platform} {b : Bool} {st : Style} {w : PWorld} (h : Ran pf b st w) {e : Item} (hp : e.plug = .strings) {line : Str} {toks : List Str} {s : Str} (hl : Lex.Line line toks) (ht : Typed w e toks [bs!"upper", s])
    (hs : ∀ c ∈ s, pf.ctypeUB c = false) (fuel : Nat) :
    ∃ w', feed (Plugins.app pf b) (fuel + 1) line w = .ok (w', none) ∧ Answers w w' (s.map upperOf ++ bs!"\n") := by
  have h7 := ht.seven h
  have hu : s.any pf.ctypeUB = false := by rw [List.any_eq_false]; intro c hc; simp [hs c hc]
  have he : s.map upperOf = s.map toUpper := List.map_congr_left (fun c _ => by
    unfold upperOf toUpper
    have : (b%'a' ≤ c ∧ c ≤ b%'z') ↔ (97 ≤ c.toNat ∧ c.toNat ≤ 122) := by rw [UInt8.le_iff_toNat_le, UInt8.le_iff_toNat_le]; rfl
    simp only [this]; rfl)
  rw [he]
  exact typed_writes h hl ht (by decide) fuel (Plugins.cmd (e.menu + 2) bs!"upper" [] (.variadic [str]) .upper bs!"Print the string in uppercase") [.str s] _ (by
      show (if s.any pf.ctypeUB then _ else _) = _; rw [if_neg (by simp [hu])]) (by
      intro w sub hd
      rw [hp]
      unfold Plug.kids
      rw [scan_miss (by simp [Plugins.cmd])]
      exact scan_hit (ps := [str]) (vals := [.str s]) (hd _ (by show 7 ≤ e.menu + 2; omega)) rfl rfl rfl rfl (call_exn pf b w.app .upper _))

/-- One string comes before another in a dictionary: it is a beginning of it, or it has the smaller character where they first differ. -/
def Dictionary (s t : Str) : Prop := s <+: t ∨ ∃ p x y q r, s = p ++ x :: q ∧ t = p ++ y :: r ∧ x < y

theorem before_iff (s t : Str) : before s t = true ↔ Dictionary s t := by
  induction s generalizing t with
  | nil => simp [before, Dictionary]
  | cons a s ih =>
    cases t with
    | nil =>
      simp only [before, Dictionary, Bool.false_eq_true, false_iff]
      rintro (h | ⟨p, x, y, q, r, h1, h2, _⟩)
      · simp at h
      · simp at h2
    | cons c t =>
      simp only [before, Bool.or_eq_true, decide_eq_true_eq, Bool.and_eq_true, beq_iff_eq, ih]
      constructor
      · rintro (h | ⟨rfl, h | ⟨p, x, y, q, r, rfl, rfl, h⟩⟩)
        · exact .inr ⟨[], a, c, s, t, rfl, rfl, h⟩
        · exact .inl (by simpa using h)
        · exact .inr ⟨a :: p, x, y, q, r, rfl, rfl, h⟩
      · rintro (h | ⟨p, x, y, q, r, h1, h2, h⟩)
        · have := List.cons_prefix_cons.1 h
          exact .inr ⟨this.1, .inl this.2⟩
        · cases p with
          | nil => cases h1; cases h2; exact .inl h
          | cons d p =>
            cases h1; cases h2
            exact .inr ⟨rfl, .inr ⟨p, x, y, q, r, rfl, rfl, h⟩⟩

theorem before_total (s t : Str) : (before s t || before t s) = true := by
  induction s generalizing t with
  | nil => simp [before]
  | cons a s ih =>
    cases t with
    | nil => simp [before]
    | cons c t =>
      simp only [before, Bool.or_eq_true, decide_eq_true_eq, Bool.and_eq_true, beq_iff_eq]
      rcases Nat.lt_trichotomy a.toNat c.toNat with h | h | h
      · exact .inl (.inl (UInt8.lt_iff_toNat_lt.2 h))
      · have hac : a = c := UInt8.toNat_inj.1 h
        subst hac
        have := ih t
        simp only [Bool.or_eq_true] at this
        rcases this with h | h
        · exact .inl (.inr ⟨rfl, h⟩)
        · exact .inr (.inr ⟨rfl, h⟩)
      · exact .inr (.inl (UInt8.lt_iff_toNat_lt.2 h))

theorem before_trans (s t u : Str) (h1 : before s t = true) (h2 : before t u = true) : before s u = true := by
  induction s generalizing t u with
  | nil => simp [before]
  | cons a s ih =>
    cases t with
    | nil => simp [before] at h1
    | cons c t =>
      cases u with
      | nil => simp [before] at h2
      | cons d u =>
        simp only [before, Bool.or_eq_true, decide_eq_true_eq, Bool.and_eq_true, beq_iff_eq] at h1 h2 ⊢
        rcases h1 with h1 | ⟨rfl, h1⟩
        · rcases h2 with h2 | ⟨rfl, h2⟩
          · exact .inl (UInt8.lt_trans h1 h2)
          · exact .inl h1
        · rcases h2 with h2 | ⟨rfl, h2⟩
          · exact .inl h2
          · exact .inr ⟨rfl, ih _ _ h1 h2⟩

theorem only_strings (f : Value → Option Str) (hf : ∀ a, f (.str a) = some a) (ws : List Str) : (ws.map Value.str).filterMap f = ws := by
  induction ws with
  | nil => rfl
  | cons a ws ih => simp [hf, ih]

/-- **C106** `sort` writes the words, however many, in the order of a dictionary. -/
theorem C106_sort {pf : Platform} {b : Bool} {st : Style} {w : PWorld} (h : Ran pf b st w) {e : Item} (hp : e.plug = .strings) {line : Str} {toks ws : List Str} (hl : Lex.Line line toks) (ht : Typed w e toks (bs!"sort" :: ws)) (fuel : Nat) :
    ∃ (w' : PWorld) (l : List Str), feed (Plugins.app pf b) (fuel + 1) line w = .ok (w', none) ∧ l.Perm ws ∧ l.Pairwise Dictionary ∧ Answers w w' (bs!"sorted list: " ++ l.flatMap (· ++ bs!" ") ++ bs!"\n") := by
  have h7 := ht.seven h
  obtain ⟨w', h1, h2⟩ := typed_writes h hl ht (by decide) fuel (Plugins.cmd (e.menu + 3) bs!"sort" [bs!"list of strings separated by space"] .freeform .sort bs!"Alphabetically sort a list of words") (ws.map Value.str)
    (bs!"sorted list: " ++ (sorted ws).flatMap (· ++ bs!" ") ++ bs!"\n") (by
      show writes _ (bs!"sorted list: " ++ (sorted (List.filterMap _ (ws.map Value.str))).flatMap _ ++ _) = _; rw [only_strings _ (fun _ => rfl)]) (by
      intro w sub hd
      rw [hp]
      unfold Plug.kids
      rw [scan_miss (by simp [Plugins.cmd]), scan_miss (by simp [Plugins.cmd])]
      exact scan_free (hd _ (by show 7 ≤ e.menu + 3; omega)) rfl rfl (call_exn pf b w.app .sort _))
  refine ⟨w', sorted ws, h1, List.mergeSort_perm _ _, ?_, h2⟩
  exact (List.pairwise_mergeSort before_trans before_total ws).imp (fun h => (before_iff _ _).1 h)

/-! ### The commands of the root menu -/

/-- **C106** The name of a plugin, typed in the root menu, enters the menu of the first one loaded with that name. -/
theorem C106_enter {pf : Platform} {b : Bool} {st : Style} {w : PWorld} (h : Ran pf b st w) (hc : w.current = 0) {p : Plug} {e : Item} (hf : First w p e) {line : Str} (hl : Lex.Line line [p.name]) (fuel : Nat) :
    ∃ w', feed (Plugins.app pf b) (fuel + 1) line w = .ok (w', none) ∧ w'.current = e.menu ∧ w'.tree = w.tree ∧ w'.io = w.io ∧ w'.log = w.log := by
  have hg := ran_good h
  have hloc : w.tree.locate w.current = some [(rootInfo, rootKids (kidsOf w.app.loaded))] := by rw [hc]; exact hg.root
  obtain ⟨x, hx⟩ := feed_answered (b := b) (r := fun w => { w with current := e.menu }) (ran_wf h) hl (not_global (pf := pf) (by cases p <;> decide)) fuel (fun x => by
    unfold scanCurrent
    show (match w.tree.locate w.current with | none => _ | some path => _) = _
    rw [hloc]
    simp only [scanCmds]
    rw [if_neg (show ¬ w.dis rootInfo.id = true by simp [rootInfo, hg.others 0 (by decide) (by decide)]), rootKids_skip]
    have step : ∀ anc, handleCommand (Plugins.app pf b) [p.name] false ((p.info e.menu, p.kids e.menu) :: anc) { w with hist := x } = .ok ({ w with hist := x, current := e.menu }, .found) := by
      intro anc
      rw [handleCommand, if_neg (show ¬ w.dis (p.info e.menu).id = true by simp [Plug.info, hg.on hf.mem]), if_pos (by simp [Plug.info]), if_pos rfl]
      rfl
    rw [kids_down _ hf (by simp) (step _)]
    rfl)
  exact ⟨_, hx, rfl, rfl, rfl, rfl⟩

/-- **C106** If no plugin of that name is loaded, the line is a wrong command. -/
theorem C106_not_loaded {pf : Platform} {b : Bool} {st : Style} {w : PWorld} (h : Ran pf b st w) (hc : w.current = 0) {p : Plug} (hf : ∀ e ∈ w.app.loaded, e.plug ≠ p) {line : Str} {ts : List Str} (hl : Lex.Line line (p.name :: ts)) (fuel : Nat) :
    ∃ w', feed (Plugins.app pf b) (fuel + 1) line w = .ok (w', none) ∧ Answers w w' (bs!"wrong command: " ++ line ++ bs!"\n") := by
  have hg := ran_good h
  obtain ⟨h1, a, _⟩ := History.newCommand_ok (ran_wf h) line
  have hs : scanCurrent (Plugins.app pf b) (p.name :: ts) { w with hist := h1 } = .ok ({ w with hist := h1 }, .notFound) := by
    unfold scanCurrent
    show (match w.tree.locate w.current with | none => _ | some path => _) = _
    rw [hc, hg.root]
    simp only [scanCmds]
    rw [if_neg (show ¬ w.dis rootInfo.id = true by simp [rootInfo, hg.others 0 (by decide) (by decide)]), rootKids_skip, kids_none _ (List.find?_eq_none.2 (fun e he => by simp [hf e he]))]
    simp [goOn, handleCommand]
  rw [feed_user (A := Plugins.app pf b) hl (not_global (by cases p <;> decide)) fuel w a]
  simp only [userPart, hs]
  exact ⟨(({ w with hist := h1 } : PWorld).note (.wrong line)).put (bs!"wrong command: " ++ line ++ bs!"\n"), rfl, rfl, rfl, rfl, rfl, rfl, rfl⟩

/-- **C106** `load` with the name of a plugin, typed in the root menu: the plugin is announced, and its menu is the last entry of the root menu. The session stays where it is. A plugin can be loaded several times. -/
theorem C106_load {pf : Platform} {b : Bool} {st : Style} {w : PWorld} (h : Ran pf b st w) (hc : w.current = 0) (p : Plug) {line : Str} (hl : Lex.Line line [bs!"load", p.name]) (fuel : Nat) :
    ∃ w' i, feed (Plugins.app pf b) (fuel + 1) line w = .ok (w', none) ∧ w'.tree = ⟨rootInfo, rootKids (kidsOf (w.app.loaded ++ [⟨p, i⟩]))⟩ ∧ (∀ e ∈ w.app.loaded, e.menu ≠ i) ∧ w'.app.loaded = w.app.loaded ++ [⟨p, i⟩] ∧
      w'.io = w.io.put (bs!"Plugin " ++ p.name ++ bs!" loaded\n") ∧ w'.current = 0 := by
  have hg := ran_good h
  obtain ⟨x, hx⟩ := feed_answered (b := b) (r := fun w => (w.effect (load b w.app p.name)).note (.ran loadCmd [.str p.name] w.snap none)) (ran_wf h) hl (not_global (pf := pf) (by decide)) fuel
    (fun x => root_scan (good_hist hg x) hc (fun sub => load_scan (good_hist hg x) _ sub))
  have hk := (keeps_load (pf := pf) (b := b) (w := { w with hist := x }) (c := loadCmd) (n := p.name) rfl none (good_hist hg x)).1
  have hld : load b w.app p.name = ⟨{ w.app with loaded := w.app.loaded ++ [⟨p, w.app.next⟩], next := w.app.next + 4 }, [.out (bs!"Plugin " ++ p.name ++ bs!" loaded\n"), .insert 0 (Item.forest ⟨p, w.app.next⟩ .nil)], none⟩ := by
    unfold load registry
    cases b <;> cases p <;> rfl
  have happ : ∀ w0 : PWorld, ((w0.act (.insert 0 (Item.forest ⟨p, w.app.next⟩ .nil))).app = w0.app) ∧ ((w0.act (.insert 0 (Item.forest ⟨p, w.app.next⟩ .nil))).io = w0.io) ∧ ((w0.act (.insert 0 (Item.forest ⟨p, w.app.next⟩ .nil))).current = w0.current) := by
    intro w0; simp only [World.act]; split <;> simp
  have e1 : (({ w with hist := x } : PWorld).effect (load b w.app p.name)).app.loaded = w.app.loaded ++ [⟨p, w.app.next⟩] := by rw [hld]; exact congrArg St.loaded (happ _).1
  refine ⟨_, w.app.next, hx, ?_, ?_, e1, ?_, ?_⟩
  · rw [← e1]; exact hk.tree
  · intro e he; have := (hg.above e he).2; omega
  · show (({ w with hist := x } : PWorld).effect (load b w.app p.name)).io = _
    rw [hld]; exact (happ _).2.1
  · show (({ w with hist := x } : PWorld).effect (load b w.app p.name)).current = _
    rw [hld]; exact (happ _).2.2.trans hc

/-- **C106** `load` with another name does nothing and says nothing. -/
theorem C106_load_unknown {pf : Platform} {b : Bool} {st : Style} {w : PWorld} (h : Ran pf b st w) (hc : w.current = 0) (n : Str) (hn : ∀ p : Plug, p.name ≠ n) {line : Str} (hl : Lex.Line line [bs!"load", n]) (fuel : Nat) :
    ∃ w', feed (Plugins.app pf b) (fuel + 1) line w = .ok (w', none) ∧ Answers w w' [] := by
  have hg := ran_good h
  obtain ⟨x, hx⟩ := feed_answered (b := b) (r := fun w => (w.effect (load b w.app n)).note (.ran loadCmd [.str n] w.snap none)) (ran_wf h) hl (not_global (pf := pf) (by decide)) fuel
    (fun x => root_scan (good_hist hg x) hc (fun sub => load_scan (good_hist hg x) _ sub))
  have hld : load b w.app n = ⟨w.app, [], none⟩ := by
    unfold load
    rw [List.find?_eq_none.2 (fun p _ => by simp [hn p])]
  refine ⟨_, hx, ?_⟩
  show Answers w ((({ w with hist := x } : PWorld).effect (load b w.app n)).note _) []
  rw [hld]
  exact ⟨by simp [World.effect, World.note, Io.put], rfl, rfl, rfl, rfl, rfl⟩

theorem drops_io (es : List Item) : ∀ w : PWorld, ((drops es).foldl World.act w).io = w.io.put (es.flatMap (fun e => bs!"Plugin " ++ e.plug.name ++ bs!" unloaded\n")) := by
  induction es with
  | nil => intro w; simp [drops, Io.put]
  | cons e es ih =>
    intro w
    have hd : drops (e :: es) = .remove e.menu :: .out (bs!"Plugin " ++ e.plug.name ++ bs!" unloaded\n") :: drops es := rfl
    rw [hd, List.foldl_cons, List.foldl_cons, ih]
    have : (w.act (.remove e.menu)).io = w.io := by simp only [World.act]; split <;> rfl
    simp only [World.act, World.put, Io.put, List.flatMap_cons, List.append_assoc] at this ⊢
    rw [this]

/-- What `unload` changes. -/
structure Unloaded (w w' : PWorld) (n : Str) : Prop where
  tree : w'.tree = ⟨rootInfo, rootKids (kidsOf (w.app.loaded.filter (fun e => e.plug.name != n)))⟩
  loaded : w'.app.loaded = w.app.loaded.filter (fun e => e.plug.name != n)
  current : w'.current = w.current
  exit : w'.exit = w.exit
  io : w'.io = w.io.put ((w.app.loaded.filter (fun e => e.plug.name == n)).flatMap (fun e => bs!"Plugin " ++ e.plug.name ++ bs!" unloaded\n"))

theorem unload_result {w : PWorld} (hg : Good w) (n : Str) (x : History.History) (e : Event) : Unloaded w ((({ w with hist := x } : PWorld).effect (unload w.app n)).note e) n := by
  have hio : (({ w with hist := x } : PWorld).effect (unload w.app n)).io = _ := drops_io (w.app.loaded.filter (fun e => e.plug.name == n)) _
  obtain ⟨g, io, hu⟩ := unload_world (good_hist hg x) n
  have hu : ({ w with hist := x } : PWorld).effect (unload w.app n) = _ := hu
  refine ⟨?_, ?_, ?_, ?_, hio⟩ <;> (simp only [World.note]; rw [hu])

/-- **C106** `unload` with a name, typed in the root menu: all the plugins of that name are announced and their menus disappear, in whatever order they were loaded; the others stay as they are. -/
theorem C106_unload {pf : Platform} {b : Bool} {st : Style} {w : PWorld} (h : Ran pf b st w) (hc : w.current = 0) (n : Str) {line : Str} (hl : Lex.Line line [bs!"unload", n]) (fuel : Nat) :
    ∃ w', feed (Plugins.app pf b) (fuel + 1) line w = .ok (w', none) ∧ Unloaded w w' n := by
  have hg := ran_good h
  obtain ⟨x, hx⟩ := feed_answered (b := b) (r := fun w => (w.effect (unload w.app n)).note (.ran unloadCmd [.str n] w.snap none)) (ran_wf h) hl (not_global (pf := pf) (by decide)) fuel
    (fun x => root_scan (good_hist hg x) hc (fun sub => unload_scan (good_hist hg x) _ sub))
  exact ⟨_, hx, unload_result hg n x _⟩

theorem tree_locate_none {t : Tree} {id : Id} (h : id ∉ t.menuIds) : t.locate id = none := by
  have h : id ∉ t.root.id :: t.kids.menuIds := h
  unfold Tree.locate
  rw [if_neg (fun he => h (by simp [he])), Forest.locate_none (fun hm => h (by simp [hm]))]

/-- **C106** In the menu of a plugin, `.. unload` (or `cli unload`) with the name of another plugin works as in the root menu; with the name of this one, the session is left in a menu that is gone, and showing the prompt is undefined. -/
theorem C106_pull {pf : Platform} {b : Bool} {st : Style} {w : PWorld} (h : Ran pf b st w) {e : Item} (he : e ∈ w.app.loaded) (hc : w.current = e.menu) (up : Str) (hup : up = bs!"cli" ∨ up = bs!"..") (n : Str) {line : Str}
    (hl : Lex.Line line [up, bs!"unload", n]) (fuel : Nat) :
    ∃ w', feed (Plugins.app pf b) (fuel + 1) line w = .ok (w', none) ∧ Unloaded w w' n ∧ (e.plug.name ≠ n → ∃ w'', prompt w' = .ok w'') ∧ (e.plug.name = n → w.exit = false → prompt w' = .error (.ub .dangling)) := by
  have hg := ran_good h
  obtain ⟨x, hx⟩ := feed_answered (b := b) (r := fun w => (w.effect (unload w.app n)).note (.ran unloadCmd [.str n] w.snap none)) (ran_wf h) hl (not_global (pf := pf) (by rcases hup with rfl | rfl <;> decide)) fuel
    (fun x => pull_scan (good_hist hg x) he hc up hup n)
  have hu := unload_result hg n x (.ran unloadCmd [.str n] ({ w with hist := x } : PWorld).snap none)
  refine ⟨_, hx, hu, fun hne => ?_, fun heq hxt => ?_⟩
  · have hw' : Ran pf b st _ := h.feed hx
    have hg' := ran_good hw'
    have hm : e ∈ w.app.loaded.filter (fun e => e.plug.name != n) := List.mem_filter.2 ⟨he, by simpa using hne⟩
    have hcur := hu.current.trans hc
    rw [← hu.loaded] at hm
    unfold Verif.prompt
    rw [hcur, hg'.locate hm]
    split <;> exact ⟨_, rfl⟩
  · have hw' : Ran pf b st _ := h.feed hx
    have hg' := ran_good hw'
    have hcur := hu.current.trans hc
    have hmi := hg'.menuIds
    have hnm : e.menu ∉ (({ w with hist := x } : PWorld).effect (unload w.app n)).tree.menuIds := by
      have h7 := (hg.above e he).1
      show e.menu ∉ ((({ w with hist := x } : PWorld).effect (unload w.app n)).note (.ran unloadCmd [.str n] ({ w with hist := x } : PWorld).snap none)).tree.menuIds
      rw [hmi, hu.loaded]
      simp only [List.mem_cons, List.mem_map, List.mem_filter, not_or, not_exists]
      refine ⟨fun hh => by have : e.menu = 0 := hh; omega, fun y ⟨⟨hy, hyn⟩, hye⟩ => ?_⟩
      rcases spaced_ne hg.spaced y hy e he with rfl | h | h
      · simp [heq] at hyn
      · omega
      · omega
    unfold Verif.prompt
    rw [hcur, if_neg (by rw [hu.exit, hxt]; simp)]
    show (match (({ w with hist := x } : PWorld).effect (unload w.app n)).tree.locate e.menu with | some ((m, _) :: _) => _ | _ => _) = _
    rw [tree_locate_none hnm]

/-- **C106** `loaded` writes the names of the plugins that are loaded, in the order of loading, and `list` those of both. -/
theorem C106_listing {pf : Platform} {b : Bool} {st : Style} {w : PWorld} (h : Ran pf b st w) (hc : w.current = 0) {line : Str} (fuel : Nat) :
    (Lex.Line line [bs!"loaded"] → ∃ w', feed (Plugins.app pf b) (fuel + 1) line w = .ok (w', none) ∧ Answers w w' ((told [] w.log).flatMap (fun p => bs!" - " ++ p.name ++ bs!"\n"))) ∧
    (Lex.Line line [bs!"list"] → ∃ w' ps, feed (Plugins.app pf b) (fuel + 1) line w = .ok (w', none) ∧ (ps = [Plug.arithmetic, .strings] ∨ ps = [.strings, .arithmetic]) ∧ Answers w w' (ps.flatMap (fun p => bs!" - " ++ p.name ++ bs!"\n"))) := by
  have hg := ran_good h
  have d : ∀ k : Nat, k ≠ 5 → k ≠ 6 → w.dis k = false := hg.others
  constructor
  · intro hl
    obtain ⟨x, hx⟩ := feed_answered (b := b) (r := fun w => (w.effect (writes w.app (listing (w.app.loaded.map Item.plug)))).note (.ran (Plugins.cmd 2 bs!"loaded" [] (.variadic []) .loaded bs!"Load the plugin specified") [] w.snap none))
      (ran_wf h) hl (not_global (pf := pf) (by decide)) fuel (fun x => root_scan (good_hist hg x) hc (fun sub => by
        unfold rootKids
        rw [scan_miss (by decide)]
        exact scan_hit (ps := []) (vals := []) (d 2 (by decide) (by decide)) rfl rfl rfl rfl rfl))
    refine ⟨_, hx, ?_, rfl, rfl, rfl, rfl, rfl⟩
    rw [← (ran_record h).1]; rfl
  · intro hl
    obtain ⟨x, hx⟩ := feed_answered (b := b) (r := fun w => (w.effect (writes w.app (listing (registry b)))).note (.ran (Plugins.cmd 1 bs!"list" [] (.variadic []) .list bs!"Print the plugin list") [] w.snap none))
      (ran_wf h) hl (not_global (pf := pf) (by decide)) fuel (fun x => root_scan (good_hist hg x) hc (fun sub => by
        unfold rootKids
        exact scan_hit (ps := []) (vals := []) (d 1 (by decide) (by decide)) rfl rfl rfl rfl rfl))
    exact ⟨_, registry b, hx, by cases b <;> simp [registry], rfl, rfl, rfl, rfl, rfl, rfl⟩

/-! ### Examples and refutations -/

def dull : Style := ⟨false, false, false⟩

/-- The program after some lines. -/
def session (lines : List Str) : Except Fault PWorld := lines.foldlM (fun w l => (feed (Plugins.app plat true) 1 l w).map (·.1)) (boot dull)

theorem session_ran (lines : List Str) : ∀ w0 w, Ran plat true dull w0 → lines.foldlM (fun w l => (feed (Plugins.app plat true) 1 l w).map (·.1)) w0 = .ok w → Ran plat true dull w := by
  induction lines with
  | nil => intro w0 w h0 h; cases h; exact h0
  | cons l ls ih =>
    intro w0 w h0 h
    rw [List.foldlM_cons] at h
    cases hf : feed (Plugins.app plat true) 1 l w0 with
    | error f => rw [hf] at h; cases h
    | ok r =>
      rw [hf] at h
      exact ih r.1 w (h0.feed (x := r.2) hf) h

theorem session_witness {lines : List Str} {P : PWorld → Bool} (h : (match session lines with | .ok w => P w | .error _ => false) = true) : ∃ w, Ran plat true dull w ∧ P w = true := by
  cases hs : session lines with
  | error f => rw [hs] at h; cases h
  | ok w =>
    rw [hs] at h
    exact ⟨w, session_ran lines _ w (.refl _) hs, h⟩

/-- **C106** (refuted) Loading a plugin, entering its menu and unloading it from there leaves the session in a menu that is gone: the prompt is undefined. -/
theorem C106_refuted_pull : ∃ w, Ran plat true dull w ∧ prompt w = .error (.ub .dangling) := by
  obtain ⟨w, h, hp⟩ := session_witness (lines := [bs!"load strings", bs!"strings", bs!".. unload strings"]) (P := fun w => match prompt w with | .error (.ub .dangling) => true | _ => false) (by decide +kernel)
  refine ⟨w, h, ?_⟩
  split at hp
  · assumption
  · cases hp

/-- **C106** (refuted) `add` does not check that the sum fits. -/
theorem C106_refuted_add : ∃ w, Ran plat true dull w ∧ w.app.ub = true :=
  session_witness (lines := [bs!"load arithmetic", bs!"arithmetic add 2147483647 1"]) (P := fun w => w.app.ub) (by decide +kernel)

/-- **C106** (refuted) `upper` passes `char` values to `toupper`. -/
theorem C106_refuted_upper : ∃ w, Ran plat true dull w ∧ w.app.ub = true :=
  session_witness (lines := [bs!"load strings", bs!"strings upper " ++ [0xE8]]) (P := fun w => w.app.ub) (by decide +kernel)

/-- What all this looks like. -/
example : (match session [bs!"load strings", bs!"load arithmetic", bs!"loaded", bs!"arithmetic", bs!"add 12 30", bs!"add 1 +2 3", bs!"cli", bs!"strings reverse abc", bs!"strings upper aBc1",
      bs!"load strings", bs!"load nothing", bs!"unload strings", bs!"strings", bs!"color", bs!"color"] with
    | .ok w => some (w.io.out, told [] w.log, chosen none w.log) | .error _ => none) =
    some (bs!"Plugin strings loaded\nPlugin arithmetic loaded\n - strings\n - arithmetic\n12 + 30 = 42\n1 + 2 + 3 = 6\ncba\nABC1\nPlugin strings loaded\nPlugin strings unloaded\nPlugin strings unloaded\nwrong command: strings\nColors ON\nwrong command: color\n",
      [.arithmetic], some true) := by decide +kernel

/-- The hypotheses of the theorems above are met: the plugins of this session, where it is, and a line that reaches a plugin from another's menu. -/
example : ∃ w, Ran plat true dull w ∧ w.current = 7 ∧ (∀ e ∈ w.log, ¬ Pulls e) ∧ Typed w ⟨.strings, 11⟩ [bs!"..", bs!"strings", bs!"sort", bs!"b", bs!"a"] [bs!"sort", bs!"b", bs!"a"] ∧
    Typed w ⟨.arithmetic, 7⟩ [bs!"add", bs!"1", bs!"2"] [bs!"add", bs!"1", bs!"2"] := by
  obtain ⟨w, h, hp⟩ := session_witness (lines := [bs!"load arithmetic", bs!"load strings", bs!"arithmetic"])
    (P := fun w => decide (w.app.loaded = [⟨.arithmetic, 7⟩, ⟨.strings, 11⟩]) && decide (w.current = 7) && w.log.all (fun | .ran c _ _ _ => decide (c.fn ≠ Fn.unload.code) | _ => true)) (by decide +kernel)
  simp only [Bool.and_eq_true, decide_eq_true_eq, List.all_eq_true] at hp
  obtain ⟨⟨h1, h2⟩, h3⟩ := hp
  refine ⟨w, h, h2, ?_, .across (p := .strings) (e' := ⟨.arithmetic, 7⟩) ?_ ?_ h2 (.inr rfl), .here ?_ h2⟩
  · intro e he hpl
    have := h3 e he
    unfold Pulls at hpl
    split at hpl
    · simp at this; exact this hpl.1
    · exact hpl
  · simp [First, h1]
  · simp [h1]
  · simp [h1]

example : Dictionary bs!"app" bs!"apple" ∧ Dictionary bs!"apple" bs!"apt" ∧ ¬ Dictionary bs!"b" bs!"apt" ∧ sorted [bs!"fig", bs!"b", bs!"apt"] = [bs!"apt", bs!"b", bs!"fig"] := by
  simp only [← before_iff]
  refine ⟨by decide, by decide, by decide, ?_⟩
  simp [sorted, List.mergeSort, List.MergeSort.Internal.splitInTwo, List.merge, before]

example : Reads plat bs!"+2" 2 ∧ Reads plat bs!"12" 12 :=
  ⟨⟨⟨bs!"2", ⟨by decide, by unfold Number.Digit; decide⟩, .inr (.inl ⟨rfl, by decide⟩)⟩, by decide, by decide, .inr (by decide)⟩,
    ⟨bs!"12", ⟨by decide, by unfold Number.Digit; decide⟩, .inl ⟨rfl, by decide⟩⟩, by decide, by decide, .inr (by decide)⟩

/-- The history with which the program starts is that of a new session of the library. -/
example (st : Style) : boot st = newSession (Plugins.app plat true) 200 { boot st with current := 5, exit := true, hist := History.init 3 } ⟨st, []⟩ := rfl

end Verif.Plugged
