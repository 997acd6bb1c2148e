import Verif.Spec.Plugins
import Verif.Props.Removal

set_option linter.unusedSimpArgs false

/-!
# The plugin manager: proofs
-/

namespace Verif.Plugged
open Spec Plugins Props
open FromString (Value)

/-! ### The invariant -/

/-- The program's menus are what they should be. -/
structure Good (w : PWorld) : Prop where
  tree : w.tree = ⟨rootInfo, rootKids (kidsOf w.app.loaded)⟩
  spaced : w.app.loaded.Pairwise (fun a b => a.menu + 4 ≤ b.menu)
  above : ∀ e ∈ w.app.loaded, 7 ≤ e.menu ∧ e.menu + 4 ≤ w.app.next
  seven : 7 ≤ w.app.next
  fresh : ∀ i : Nat, i ∈ w.used → i < w.app.next
  wf : TreeWF w.tree w.used
  others : ∀ i, i ≠ 5 → i ≠ 6 → w.dis i = false

theorem kidsOf_cons (e : Item) (l : List Item) : kidsOf (e :: l) = e.forest (kidsOf l) := rfl

theorem kids_menuIds (i : Id) (p : Plug) : (p.kids i).menuIds = [] := by cases p <;> rfl
theorem kids_ids (i : Id) (p : Plug) : (p.kids i).ids = [i + 1, i + 2, i + 3] := by cases p <;> rfl

theorem kidsOf_menuIds (l : List Item) : (kidsOf l).menuIds = l.map (·.menu) := by
  induction l with
  | nil => rfl
  | cons e l ih => simp only [kidsOf_cons, Item.forest, Forest.menuIds, kids_menuIds, List.nil_append, ih, List.map_cons]; rfl

theorem rootKids_menuIds (f : Forest) : (rootKids f).menuIds = f.menuIds := rfl
theorem rootKids_ids (f : Forest) : (rootKids f).ids = 1 :: 2 :: 3 :: 4 :: 5 :: 6 :: f.ids := rfl

theorem kidsOf_ids {l : List Item} {i : Id} : i ∈ (kidsOf l).ids ↔ ∃ e ∈ l, i = e.menu ∨ i = e.menu + 1 ∨ i = e.menu + 2 ∨ i = e.menu + 3 := by
  induction l with
  | nil => simp [kidsOf, Forest.ids]
  | cons e l ih =>
    simp only [kidsOf_cons, Item.forest, Forest.ids, kids_ids, List.mem_cons, List.mem_append, ih, List.not_mem_nil, or_false, Plug.info]
    grind

theorem kids_remove (i id : Id) (p : Plug) (h : id ≠ i + 1 ∧ id ≠ i + 2 ∧ id ≠ i + 3) : (p.kids i).remove id = p.kids i := by
  obtain ⟨h1, h2, h3⟩ := h
  cases p <;> simp [Plug.kids, Forest.remove, Plugins.cmd, Ne.symm h1, Ne.symm h2, Ne.symm h3]

theorem kidsOf_append (l : List Item) (e : Item) : (kidsOf l).append (e.forest .nil) = kidsOf (l ++ [e]) := by
  induction l with
  | nil => rfl
  | cons x l ih => simp only [kidsOf_cons, List.cons_append, Item.forest, Forest.append]; rw [← ih]; rfl

/-- Removing the menu of one plugin. -/
theorem kidsOf_remove (l : List Item) (id : Nat) (h : ∀ e ∈ l, id ≠ e.menu + 1 ∧ id ≠ e.menu + 2 ∧ id ≠ e.menu + 3) :
    (kidsOf l).remove id = kidsOf (l.filter (fun e => e.menu != id)) := by
  induction l with
  | nil => rfl
  | cons e l ih =>
    have ih := ih (fun x hx => h x (by simp [hx]))
    simp only [kidsOf_cons, Item.forest, Forest.remove, Plug.info]
    by_cases he : e.menu = id
    · simp [he, ih]
    · rw [if_neg he, kids_remove _ _ _ (h e (by simp)), ih]
      have : (e.menu != id) = true := by simpa using he
      rw [List.filter_cons, if_pos this]; rfl

theorem tree_remove (l : List Item) (id : Nat) (h7 : 7 ≤ id) (h : ∀ e ∈ l, id ≠ e.menu + 1 ∧ id ≠ e.menu + 2 ∧ id ≠ e.menu + 3) :
    Tree.remove id ⟨rootInfo, rootKids (kidsOf l)⟩ = ⟨rootInfo, rootKids (kidsOf (l.filter (fun e => e.menu != id)))⟩ := by
  have n : ∀ k : Nat, k < 7 → (k : Id) ≠ id := fun k hk e => by have : k = id := e; omega
  simp only [Tree.remove, rootKids, Forest.remove, Plugins.cmd, kidsOf_remove l id h, n 1 (by omega), n 2 (by omega), n 3 (by omega), n 4 (by omega), n 5 (by omega), n 6 (by omega), if_false]

/-! ### What the functions do -/

theorem mem_kidsOf_menu {l : List Item} {e : Item} (h : e ∈ l) : e.menu ∈ (kidsOf l).ids := kidsOf_ids.2 ⟨e, h, .inl rfl⟩

/-- Plugins unloaded one after the other. -/
def drops (es : List Item) : List Act := es.flatMap (fun e => [.remove e.menu, .out (bs!"Plugin " ++ e.plug.name ++ bs!" unloaded\n")])

/-- The identities of different plugins are far apart. -/
def Apart4 (l : List Item) : Prop := ∀ a ∈ l, ∀ b ∈ l, 7 ≤ a.menu ∧ (a.menu = b.menu ∨ a.menu + 4 ≤ b.menu ∨ b.menu + 4 ≤ a.menu)

theorem drops_world (es : List Item) : ∀ (w : PWorld) (l : List Item), w.tree = ⟨rootInfo, rootKids (kidsOf l)⟩ → Apart4 (es ++ l) →
    ∃ g io, (drops es).foldl World.act w = { w with tree := ⟨rootInfo, rootKids (kidsOf (l.filter (fun e => !(es.map (·.menu)).contains e.menu)))⟩, gen := g, io := io } := by
  induction es with
  | nil =>
    intro w l ht _
    refine ⟨w.gen, w.io, ?_⟩
    have : l.filter (fun e => !(([] : List Item).map (·.menu)).contains e.menu) = l := List.filter_eq_self.2 (fun _ _ => rfl)
    simp only [this, drops, List.flatMap_nil, List.foldl_nil, ← ht]
  | cons e es ih =>
    intro w l ht hap
    have hd : drops (e :: es) = .remove e.menu :: .out (bs!"Plugin " ++ e.plug.name ++ bs!" unloaded\n") :: drops es := rfl
    rw [hd, List.foldl_cons, List.foldl_cons]
    have hne : ∀ x ∈ l, e.menu ≠ x.menu + 1 ∧ e.menu ≠ x.menu + 2 ∧ e.menu ≠ x.menu + 3 := by
      intro x hx
      have := hap e (by simp) x (by simp [hx])
      omega
    have h7 := (hap e (by simp) e (by simp)).1
    have key : ∃ g, w.act (.remove e.menu) = { w with tree := ⟨rootInfo, rootKids (kidsOf (l.filter (fun x => x.menu != e.menu)))⟩, gen := g } := by
      simp only [World.act]
      split
      · exact ⟨_, by rw [ht, tree_remove l e.menu h7 hne]⟩
      · rename_i hn
        refine ⟨w.gen, ?_⟩
        have : l.filter (fun x => x.menu != e.menu) = l := by
          refine List.filter_eq_self.2 (fun x hx => ?_)
          have : x.menu ≠ e.menu := by
            intro he
            apply hn
            rw [ht, ← he]
            simp only [rootKids_ids, List.mem_cons]
            right; right; right; right; right; right
            exact mem_kidsOf_menu hx
          simpa using this
        rw [this, ← ht]
    obtain ⟨g, hg⟩ := key
    rw [hg]
    obtain ⟨g2, io2, h2⟩ := ih ({ w with tree := ⟨rootInfo, rootKids (kidsOf (l.filter (fun x => x.menu != e.menu)))⟩, gen := g } |>.act (.out (bs!"Plugin " ++ e.plug.name ++ bs!" unloaded\n")))
      (l.filter (fun x => x.menu != e.menu)) rfl (by
        intro a ha b hb
        have sub : ∀ c ∈ es ++ l.filter (fun x => x.menu != e.menu), c ∈ (e :: es) ++ l := by
          intro c hc
          rcases List.mem_append.1 hc with hc | hc
          · simp [hc]
          · simp [(List.mem_filter.1 hc).1]
        exact hap a (sub a ha) b (sub b hb))
    refine ⟨g2, io2, ?_⟩
    rw [h2]
    have : (l.filter (fun x => x.menu != e.menu)).filter (fun x => !(es.map (·.menu)).contains x.menu) = l.filter (fun x => !((e :: es).map (·.menu)).contains x.menu) := by
      rw [List.filter_filter]
      congr 1
      funext x
      by_cases hx : x.menu = e.menu <;> simp [hx]
    rw [this]
    rfl

/-- Everything that is preserved. -/
def Keeps (pf : Platform) (w w' : PWorld) : Prop := Good w → Good w' ∧ ∃ evs, w'.log = w.log ++ evs ∧
  w'.app.loaded.map (·.plug) = told (w.app.loaded.map (·.plug)) evs ∧
  (w'.app.ub = true ↔ w.app.ub = true ∨ ∃ e ∈ evs, Breaks pf e) ∧
  (∀ o, Offers w o → Offers w' (chosen o evs)) ∧
  (w.current ∈ w.tree.menuIds → (∀ e ∈ evs, ¬ Pulls e) → w'.current ∈ w'.tree.menuIds)

theorem keeps_refl (pf : Platform) (w : PWorld) : Keeps pf w w := fun h => ⟨h, [], by simp, rfl, by simp, fun _ h => h, fun h _ => h⟩

theorem keeps_trans {pf : Platform} {a b c : PWorld} (h1 : Keeps pf a b) (h2 : Keeps pf b c) : Keeps pf a c := by
  intro h
  obtain ⟨g1, e1, l1, t1, u1, c1, m1⟩ := h1 h
  obtain ⟨g2, e2, l2, t2, u2, c2, m2⟩ := h2 g1
  refine ⟨g2, e1 ++ e2, by rw [l2, l1, List.append_assoc], ?_, ?_, ?_, ?_⟩
  · rw [t2, t1]; exact (List.foldl_append ..).symm
  · rw [u2, u1]
    constructor
    · rintro ((h | ⟨e, h, g⟩) | ⟨e, h, g⟩)
      · exact .inl h
      · exact .inr ⟨e, by simp [h], g⟩
      · exact .inr ⟨e, by simp [h], g⟩
    · rintro (h | ⟨e, h, g⟩)
      · exact .inl (.inl h)
      · rcases List.mem_append.1 h with h | h
        · exact .inl (.inr ⟨e, h, g⟩)
        · exact .inr ⟨e, h, g⟩
  · intro o ho
    have := c2 _ (c1 o ho)
    rwa [show chosen o (e1 ++ e2) = chosen (chosen o e1) e2 from List.foldl_append ..]
  · exact fun hc hp => m2 (m1 hc (fun e he => hp e (by simp [he]))) (fun e he => hp e (by simp [he]))

/-- An event that is no call. -/
theorem plain_says {pf : Platform} {e : Event} (h : isPlain e = true ∨ ∃ l, e = .saved l) : (∀ ps, toldBy ps e = ps) ∧ ¬ Breaks pf e ∧ (∀ o, chosenBy o e = o) ∧ ¬ Pulls e := by
  cases e <;> first
    | (rcases h with h | ⟨_, h⟩ <;> cases h; done)
    | (refine ⟨fun _ => rfl, ?_, fun _ => rfl, fun h => h⟩
       rintro (⟨x, hx, _⟩ | ⟨_, _, _, _, h, _⟩)
       · cases hx
       · cases h)

theorem good_same {w w' : PWorld} (h : Good w) (ht : w'.tree = w.tree) (hu : w'.used = w.used) (hl : w'.app.loaded = w.app.loaded) (hn : w'.app.next = w.app.next) (hd : w'.dis = w.dis) : Good w' :=
  ⟨by rw [ht, hl]; exact h.tree, by rw [hl]; exact h.spaced, by rw [hl, hn]; exact h.above, by rw [hn]; exact h.seven, by rw [hu, hn]; exact h.fresh, by rw [ht, hu]; exact h.wf, by rw [hd]; exact h.others⟩

/-- A step that changes nothing of all this, and records nothing. -/
theorem keeps_same {pf : Platform} {w w' : PWorld} (ht : w'.tree = w.tree) (hu : w'.used = w.used) (hl : w'.app.loaded = w.app.loaded) (hn : w'.app.next = w.app.next) (hb : w'.app.ub = w.app.ub) (hd : w'.dis = w.dis)
    (hc : w'.current = w.current ∨ w'.current ∈ w'.tree.menuIds) (hlog : w'.log = w.log) : Keeps pf w w' := by
  intro h
  refine ⟨good_same h ht hu hl hn hd, [], by simp [hlog], by rw [hl]; rfl, by simp [hb], fun o ho => ?_, fun hm _ => ?_⟩
  · show w'.dis 5 = _ ∧ w'.dis 6 = _; rw [hd]; exact ho
  · rcases hc with hc | hc
    · rw [hc, ht]; exact hm
    · exact hc

theorem keeps_note {pf : Platform} (w : PWorld) (e : Event) (he : isPlain e = true ∨ ∃ l, e = .saved l) (st : Storage.Volatile) (x : Bool) : Keeps pf w { w.note e with storage := st, exit := x } := by
  obtain ⟨h1, h2, h3, h4⟩ := plain_says (pf := pf) he
  intro h
  refine ⟨good_same h rfl rfl rfl rfl rfl, [e], rfl, (h1 _).symm, by simp [h2]; rfl, fun o ho => ?_, fun hm _ => hm⟩
  show Offers w (chosenBy o e)
  rw [h3]; exact ho

/-- A call that changes neither the plugins nor the menus. -/
theorem keeps_idle {pf : Platform} (w : PWorld) (c : Cmd) (vals : List Value) (sn : Snap) (x : Option Exn) (s : Plugins.St) (io : Io) (hl : s.loaded = w.app.loaded) (hn : s.next = w.app.next)
    (ht : ∀ ps, toldBy ps (.ran c vals sn x) = ps) (ho : ∀ o, chosenBy o (.ran c vals sn x) = o) (hu : s.ub = true ↔ w.app.ub = true ∨ Breaks pf (.ran c vals sn x)) :
    Keeps pf w ({ w with app := s, io := io }.note (.ran c vals sn x)) := by
  intro h
  refine ⟨good_same h rfl rfl hl hn rfl, [.ran c vals sn x], rfl, ?_, by show s.ub = true ↔ _; simpa using hu, fun o hf => ?_, fun hm _ => hm⟩
  · show s.loaded.map _ = toldBy _ _
    rw [ht, hl]
  · show w.dis 5 = (chosenBy o (.ran c vals sn x) == some true) ∧ w.dis 6 = (chosenBy o (.ran c vals sn x) == some false)
    rw [ho]; exact hf

theorem ofCode_code {n : Nat} {f : Fn} (h : Fn.ofCode n = some f) : n = f.code := by
  unfold Fn.ofCode at h
  split at h <;> first | (cases h; rfl) | cases h

theorem code_inj {f g : Fn} : f.code = g.code ↔ f = g := by
  constructor
  · intro h; cases f <;> cases g <;> first | rfl | cases h
  · rintro rfl; rfl

/-- A function other than `load`, `unload`, `color` and `nocolor`. -/
theorem quiet {f : Fn} (h1 : f ≠ .load) (h2 : f ≠ .unload) (h3 : f ≠ .color) (h4 : f ≠ .nocolor) {c : Cmd} (hc : c.fn = f.code) (vals : List Value) (sn : Snap) (x : Option Exn) :
    (∀ ps, toldBy ps (.ran c vals sn x) = ps) ∧ (∀ o, chosenBy o (.ran c vals sn x) = o) := by
  constructor
  · intro ps
    unfold toldBy
    split
    · rename_i he; cases he; rw [hc]; simp [code_inj, h1, h2]
    · rfl
  · intro o
    simp only [chosenBy, hc, code_inj, h3, h4, if_false]

theorem fits_iff (x : Int) : fits x = true ↔ -2 ^ 31 ≤ x ∧ x < 2 ^ 31 := by simp [fits]

theorem calculates_ub {pf : Platform} (s : Plugins.St) (e : Event) (rs : List Int) (text : Str) (hr : results e = rs) (hu : ∀ c a sn x, e ≠ .ran c [.str a] sn x) :
    ((calculates s rs text).app.ub = true ↔ s.ub = true ∨ Breaks pf e) ∧ (calculates s rs text).app.loaded = s.loaded ∧ (calculates s rs text).app.next = s.next := by
  have hb : Breaks pf e ↔ ¬ rs.all fits = true := by
    simp only [Breaks, hr, List.all_eq_true, fits_iff]
    constructor
    · rintro (⟨x, h1, h2⟩ | ⟨c, a, sn, x, h, _⟩)
      · exact fun h => h2 (h x h1)
      · exact absurd h (hu c a sn x)
    · intro h
      rw [Classical.not_forall] at h
      obtain ⟨x, h⟩ := h
      rw [Classical.not_imp] at h
      exact .inl ⟨x, h.1, h.2⟩
  unfold calculates
  split
  · rename_i h
    refine ⟨?_, rfl, rfl⟩
    rw [hb]; simp [h, writes]
  · rename_i h
    refine ⟨?_, rfl, rfl⟩
    rw [hb]; simp [h]

theorem effect_idle (w : PWorld) (e : Effect Plugins.St) (h : e.acts = [] ∨ ∃ t, e.acts = [.out t]) : ∃ io, w.effect e = { w with app := e.app, io := io } := by
  unfold World.effect
  rcases h with h | ⟨t, h⟩
  · rw [h]; exact ⟨w.io, rfl⟩
  · rw [h]; exact ⟨w.io.put t, rfl⟩

theorem keeps_quiet {pf : Platform} {w : PWorld} {c : Cmd} {vals : List Value} {e : Effect Plugins.St} (x : Option Exn) (ha : e.acts = [] ∨ ∃ t, e.acts = [.out t]) (hl : e.app.loaded = w.app.loaded) (hn : e.app.next = w.app.next)
    (ht : ∀ ps, toldBy ps (.ran c vals w.snap x) = ps) (ho : ∀ o, chosenBy o (.ran c vals w.snap x) = o) (hu : e.app.ub = true ↔ w.app.ub = true ∨ Breaks pf (.ran c vals w.snap x)) :
    Keeps pf w ((w.effect e).note (.ran c vals w.snap x)) := by
  obtain ⟨io, h⟩ := effect_idle w e ha
  rw [h]
  exact keeps_idle w c vals w.snap x e.app io hl hn ht ho hu

theorem calm_call {pf : Platform} {c : Cmd} {vals : List Value} {sn : Snap} {x : Option Exn} (hr : results (.ran c vals sn x) = []) (hu : c.fn ≠ Fn.upper.code ∨ ∀ a, vals ≠ [.str a]) : ¬ Breaks pf (.ran c vals sn x) := by
  rintro (⟨y, hy, _⟩ | ⟨c', a, s', x', h, h2, _⟩)
  · rw [hr] at hy; cases hy
  · cases h
    rcases hu with hu | hu
    · exact hu h2
    · exact hu a rfl

theorem results_other {c : Cmd} {vals : List Value} {sn : Snap} {x : Option Exn} (h1 : c.fn = Fn.add2.code ∨ c.fn = Fn.sub.code → ∀ a b, vals ≠ [.int a, .int b]) (h2 : c.fn = Fn.add3.code → ∀ a b d, vals ≠ [.int a, .int b, .int d]) :
    results (.ran c vals sn x) = [] := by
  unfold results
  split
  · rename_i he; cases he
    rw [if_neg (fun h => h1 (.inl h) _ _ rfl), if_neg (fun h => h1 (.inr h) _ _ rfl)]
  · rename_i he; cases he
    rw [if_neg (fun h => h2 h _ _ _ rfl)]
  · rfl

/-- Loading. -/
theorem keeps_load {pf : Platform} {b : Bool} {w : PWorld} {c : Cmd} {n : Str} (hc : c.fn = Fn.load.code) (x : Option Exn) : Keeps pf w ((w.effect (load b w.app n)).note (.ran c [.str n] w.snap x)) := by
  have hnb : ¬ Breaks pf (.ran c [.str n] w.snap x) := calm_call (results_other (fun _ _ _ h => by cases h) (fun _ _ _ _ h => by cases h)) (.inl (by rw [hc]; decide))
  have hch : ∀ o, chosenBy o (.ran c [.str n] w.snap x) = o := by intro o; simp [chosenBy, hc, code_inj]
  have htold : ∀ ps, toldBy ps (.ran c [.str n] w.snap x) = ps ++ [Plug.arithmetic, Plug.strings].filter (fun p => p.name == n) := by intro ps; simp only [toldBy, hc, if_true]
  have hreg : ∀ p, (registry b).find? (fun p => p.name == n) = some p → [Plug.arithmetic, Plug.strings].filter (fun p => p.name == n) = [p] := by
    intro p hp
    have hn := List.find?_some hp
    simp only [beq_iff_eq] at hn
    subst hn
    cases p <;> rfl
  have hreg' : (registry b).find? (fun p => p.name == n) = none → [Plug.arithmetic, Plug.strings].filter (fun p => p.name == n) = [] := by
    intro hp
    rw [List.find?_eq_none] at hp
    rw [List.filter_eq_nil_iff]
    intro p _
    refine hp p ?_
    cases b <;> cases p <;> simp [registry]
  unfold load
  split
  · rename_i hf
    exact keeps_quiet x (.inl rfl) rfl rfl (fun ps => by rw [htold, hreg' hf, List.append_nil]) hch (by simp [hnb])
  · rename_i p hf
    intro h
    have hids : (Item.forest ⟨p, w.app.next⟩ .nil).ids = [w.app.next, w.app.next + 1, w.app.next + 2, w.app.next + 3] := by
      simp only [Item.forest, Forest.ids, kids_ids, Plug.info]; rfl
    have hcond : (0 : Id) ∈ w.tree.menuIds ∧ (Item.forest ⟨p, w.app.next⟩ .nil).ids.Nodup ∧ ∀ i ∈ (Item.forest ⟨p, w.app.next⟩ .nil).ids, i ∉ w.used := by
      refine ⟨by rw [h.tree]; exact List.mem_cons_self .., ?_, ?_⟩
      · rw [hids]
        simp
      · rw [hids]
        intro i hi hu
        have := h.fresh i hu
        simp only [List.mem_cons, List.not_mem_nil, or_false] at hi
        rcases hi with rfl | rfl | rfl | rfl <;> omega
    have htree : w.tree.insertAt 0 (Item.forest ⟨p, w.app.next⟩ .nil) = ⟨rootInfo, rootKids (kidsOf (w.app.loaded ++ [⟨p, w.app.next⟩]))⟩ := by
      rw [h.tree]
      show (⟨rootInfo, (rootKids (kidsOf w.app.loaded)).append _⟩ : Tree) = _
      rw [← kidsOf_append]; rfl
    have heff : (w.effect ⟨{ w.app with loaded := w.app.loaded ++ [⟨p, w.app.next⟩], next := w.app.next + 4 }, [.out (bs!"Plugin " ++ p.name ++ bs!" loaded\n"), .insert 0 (Item.forest ⟨p, w.app.next⟩ .nil)], none⟩) =
        { w with app := { w.app with loaded := w.app.loaded ++ [⟨p, w.app.next⟩], next := w.app.next + 4 }, io := w.io.put (bs!"Plugin " ++ p.name ++ bs!" loaded\n"),
                 tree := ⟨rootInfo, rootKids (kidsOf (w.app.loaded ++ [⟨p, w.app.next⟩]))⟩, used := w.used ++ (Item.forest ⟨p, w.app.next⟩ .nil).ids, gen := w.gen + 1 } := by
      simp only [World.effect, List.foldl_cons, List.foldl_nil, World.act, World.put]
      rw [if_pos hcond, htree]
    rw [heff]
    have hwf : TreeWF (w.tree.insertAt 0 (Item.forest ⟨p, w.app.next⟩ .nil)) (w.used ++ (Item.forest ⟨p, w.app.next⟩ .nil).ids) := stable_wf.2 _ _ _ _ trivial hcond.1 hcond.2.1 hcond.2.2 h.wf
    rw [htree] at hwf
    refine ⟨⟨rfl, ?_, ?_, ?_, ?_, hwf, h.others⟩, [.ran c [.str n] w.snap x], rfl, ?_, ?_, ?_, ?_⟩
    · refine List.pairwise_append.2 ⟨h.spaced, by simp, ?_⟩
      intro a ha e he
      simp only [List.mem_singleton] at he
      subst he
      exact (h.above a ha).2
    · intro e he
      rcases List.mem_append.1 he with he | he
      · have := h.above e he
        exact ⟨this.1, Nat.le_trans this.2 (Nat.le_add_right ..)⟩
      · simp only [List.mem_singleton] at he
        subst he
        exact ⟨h.seven, Nat.le_refl _⟩
    · exact Nat.le_trans h.seven (Nat.le_add_right ..)
    · intro i hi
      rcases List.mem_append.1 hi with hi | hi
      · exact Nat.lt_of_lt_of_le (h.fresh i hi) (Nat.le_add_right ..)
      · rw [hids] at hi
        simp only [List.mem_cons, List.not_mem_nil, or_false] at hi
        show i < w.app.next + 4
        rcases hi with rfl | rfl | rfl | rfl <;> omega
    · show (w.app.loaded ++ [(⟨p, w.app.next⟩ : Item)]).map (·.plug) = toldBy (w.app.loaded.map (·.plug)) (.ran c [.str n] w.snap x)
      rw [htold, hreg p hf]; simp
    · show w.app.ub = true ↔ _
      simp [hnb]
    · intro o ho
      show w.dis 5 = (chosenBy o (.ran c [.str n] w.snap x) == some true) ∧ w.dis 6 = (chosenBy o (.ran c [.str n] w.snap x) == some false)
      rw [hch]; exact ho
    · intro hm _
      show w.current ∈ _
      rw [h.tree] at hm
      simp only [World.note, Tree.menuIds, rootKids_menuIds, kidsOf_menuIds, List.mem_cons, List.map_append, List.mem_append] at hm ⊢
      rcases hm with hm | hm
      · exact .inl hm
      · exact .inr (.inl hm)

theorem spaced_ne {l : List Item} (h : l.Pairwise (fun a b => a.menu + 4 ≤ b.menu)) : ∀ a ∈ l, ∀ b ∈ l, (a = b ∨ a.menu + 4 ≤ b.menu ∨ b.menu + 4 ≤ a.menu) := by
  induction l with
  | nil => intro a ha; cases ha
  | cons x l ih =>
    rw [List.pairwise_cons] at h
    intro a ha b hb
    rcases List.mem_cons.1 ha with ea | ha' <;> rcases List.mem_cons.1 hb with eb | hb'
    · exact .inl (ea.trans eb.symm)
    · exact .inr (.inl (ea ▸ h.1 b hb'))
    · exact .inr (.inr (eb ▸ h.1 a ha'))
    · exact ih h.2 a ha' b hb'

theorem kidsOf_locate {l : List Item} (h : l.Pairwise (fun a b => a.menu + 4 ≤ b.menu)) {e : Item} (he : e ∈ l) (anc : Path) :
    (kidsOf l).locate e.menu anc = some ((e.plug.info e.menu, e.plug.kids e.menu) :: anc) := by
  induction l with
  | nil => cases he
  | cons x l ih =>
    rw [List.pairwise_cons] at h
    rw [kidsOf_cons]
    unfold Item.forest Forest.locate
    rcases List.mem_cons.1 he with rfl | he
    · exact if_pos rfl
    · have : x.menu ≠ e.menu := fun hh => by have := h.1 e he; omega
      rw [if_neg (show ¬ (x.plug.info x.menu).id = e.menu from this), Forest.locate_none (by rw [kids_menuIds]; simp)]
      exact ih h.2 he

/-- Where a plugin's menu is. -/
theorem Good.locate {w : PWorld} (h : Good w) {e : Item} (he : e ∈ w.app.loaded) :
    w.tree.locate e.menu = some [(e.plug.info e.menu, e.plug.kids e.menu), (rootInfo, rootKids (kidsOf w.app.loaded))] := by
  rw [h.tree]
  unfold Tree.locate
  have h7 := (h.above e he).1
  rw [if_neg (show ¬ rootInfo.id = e.menu from fun hh => by have : (0 : Nat) = e.menu := hh; omega)]
  show (rootKids (kidsOf w.app.loaded)).locate e.menu _ = _
  exact kidsOf_locate h.spaced he _

theorem Good.menuIds {w : PWorld} (h : Good w) : w.tree.menuIds = 0 :: w.app.loaded.map (·.menu) := by
  rw [h.tree]; simp only [Tree.menuIds, rootKids_menuIds, kidsOf_menuIds]; rfl

theorem Good.apart {w : PWorld} (h : Good w) : Apart4 w.app.loaded := by
  intro a ha b hb
  refine ⟨(h.above a ha).1, ?_⟩
  rcases spaced_ne h.spaced a ha b hb with rfl | h | h
  · exact .inl rfl
  · exact .inr (.inl h)
  · exact .inr (.inr h)

/-- Unloading. -/
theorem unload_world {w : PWorld} (h : Good w) (n : Str) : ∃ g io, w.effect (unload w.app n) =
    { w with app := { w.app with loaded := w.app.loaded.filter (fun e => e.plug.name != n) }, tree := ⟨rootInfo, rootKids (kidsOf (w.app.loaded.filter (fun e => e.plug.name != n)))⟩, gen := g, io := io } := by
  obtain ⟨g, io, hd⟩ := drops_world (w.app.loaded.filter (fun e => e.plug.name == n)) { w with app := { w.app with loaded := w.app.loaded.filter (fun e => e.plug.name != n) } } w.app.loaded h.tree (by
    have sub : ∀ c ∈ w.app.loaded.filter (fun e => e.plug.name == n) ++ w.app.loaded, c ∈ w.app.loaded := by
      intro c hc
      rcases List.mem_append.1 hc with hc | hc
      · exact (List.mem_filter.1 hc).1
      · exact hc
    intro a ha b hb
    exact h.apart a (sub a ha) b (sub b hb))
  refine ⟨g, io, ?_⟩
  have hf : w.app.loaded.filter (fun e => !((w.app.loaded.filter (fun e => e.plug.name == n)).map (·.menu)).contains e.menu) = w.app.loaded.filter (fun e => e.plug.name != n) := by
    apply List.filter_congr
    intro x hx
    rw [Bool.eq_iff_iff]
    simp only [Bool.not_eq_true', List.contains_eq_mem, decide_eq_false_iff_not, List.mem_map, List.mem_filter, beq_iff_eq, bne_iff_ne, ne_eq]
    constructor
    · intro hn he
      exact hn ⟨x, ⟨hx, he⟩, rfl⟩
    · rintro hn ⟨y, ⟨hy, hyn⟩, hm⟩
      rcases spaced_ne h.spaced y hy x hx with rfl | h | h
      · exact hn hyn
      · omega
      · omega
  rw [hf] at hd
  exact hd

theorem keeps_unload {pf : Platform} {w : PWorld} {c : Cmd} {n : Str} (hc : c.fn = Fn.unload.code) (x : Option Exn) : Keeps pf w ((w.effect (unload w.app n)).note (.ran c [.str n] w.snap x)) := by
  have hnb : ¬ Breaks pf (.ran c [.str n] w.snap x) := calm_call (results_other (fun _ _ _ h => by cases h) (fun _ _ _ _ h => by cases h)) (.inl (by rw [hc]; decide))
  have hch : ∀ o, chosenBy o (.ran c [.str n] w.snap x) = o := by intro o; simp [chosenBy, hc, code_inj]
  have htold : ∀ ps, toldBy ps (.ran c [.str n] w.snap x) = ps.filter (fun p => p.name != n) := by intro ps; simp [toldBy, hc, code_inj]
  intro h
  have hwf : TreeWF (w.effect (unload w.app n)).tree (w.effect (unload w.app n)).used := by
    refine rel_effect (R := fun a b : PWorld => TreeWF a.tree a.used → TreeWF b.tree b.used) (OK := fun _ => True) (fun _ h => h) (fun h1 h2 h => h2 (h1 h)) (fun _ _ h => h) (fun w a _ h => stable_act stable_wf w a trivial h) w _ (fun _ _ => trivial) h.wf
  obtain ⟨g, io, he⟩ := unload_world h n
  rw [he] at hwf ⊢
  refine ⟨⟨rfl, ?_, ?_, h.seven, h.fresh, hwf, h.others⟩, [.ran c [.str n] w.snap x], rfl, ?_, ?_, ?_, ?_⟩
  · exact h.spaced.filter _
  · intro e he
    exact h.above e (List.mem_filter.1 he).1
  · show (w.app.loaded.filter (fun e => e.plug.name != n)).map (·.plug) = toldBy (w.app.loaded.map (·.plug)) (.ran c [.str n] w.snap x)
    rw [htold, List.filter_map]; rfl
  · show w.app.ub = true ↔ _
    simp [hnb]
  · intro o ho
    show w.dis 5 = (chosenBy o (.ran c [.str n] w.snap x) == some true) ∧ w.dis 6 = (chosenBy o (.ran c [.str n] w.snap x) == some false)
    rw [hch]; exact ho
  · intro hm hp
    show w.current ∈ _
    rw [h.menuIds] at hm
    simp only [World.note, Tree.menuIds, rootKids_menuIds, kidsOf_menuIds, List.mem_cons] at hm ⊢
    rcases hm with hm | hm
    · exact .inl hm
    · right
      obtain ⟨e, he, hcur⟩ := List.mem_map.1 hm
      refine List.mem_map.2 ⟨e, List.mem_filter.2 ⟨he, ?_⟩, hcur⟩
      rw [bne_iff_ne]
      intro hn
      refine hp _ (List.mem_singleton.2 rfl) ⟨hc, ?_, e.plug.info e.menu, e.plug.kids e.menu, [(rootInfo, rootKids (kidsOf w.app.loaded))], ?_, hn⟩
      · show w.current ≠ w.tree.root.id
        rw [h.tree, ← hcur]
        have := (h.above e he).1
        show e.menu ≠ 0
        omega
      · show w.tree.locate w.current = _
        rw [← hcur]
        exact h.locate he

theorem keeps_color {pf : Platform} {w : PWorld} {c : Cmd} {vals : List Value} (on : Bool) (hc : c.fn = (if on then Fn.color else Fn.nocolor).code) (x : Option Exn) (t : Str) :
    Keeps pf w ((w.effect ⟨w.app, [.out t, .color on] ++ (if on then [.disable 5, .enable 6] else [.enable 5, .disable 6]), none⟩).note (.ran c vals w.snap x)) := by
  have hnb : ¬ Breaks pf (.ran c vals w.snap x) := calm_call (results_other (fun h => by rw [hc] at h; cases on <;> simp [code_inj] at h) (fun h => by rw [hc] at h; cases on <;> simp [code_inj] at h)) (.inl (by rw [hc]; cases on <;> decide))
  have htold : ∀ ps, toldBy ps (.ran c vals w.snap x) = ps := by
    intro ps
    unfold toldBy
    split
    · rename_i he; cases he; rw [hc]; cases on <;> simp [code_inj]
    · rfl
  have hch : ∀ o, chosenBy o (.ran c vals w.snap x) = some on := by intro o; simp only [chosenBy, hc]; cases on <;> simp [code_inj]
  intro h
  have h5 : (5 : Id) ∈ w.tree.ids := by rw [h.tree]; simp [Tree.ids, rootKids_ids]
  have h6 : (6 : Id) ∈ w.tree.ids := by rw [h.tree]; simp [Tree.ids, rootKids_ids]
  obtain ⟨io, he⟩ : ∃ io, w.effect ⟨w.app, [.out t, .color on] ++ (if on then [.disable 5, .enable 6] else [.enable 5, .disable 6]), none⟩ =
      { w with io := io, dis := fun i => if i = 5 then on else if i = 6 then !on else w.dis i } := by
    refine ⟨{ w.io.put t with style := { (w.io.put t).style with color := on } }, ?_⟩
    cases on
    · simp only [World.effect, List.cons_append, List.nil_append, Bool.false_eq_true, if_false, List.foldl_cons, List.foldl_nil, World.act, World.put, if_pos h5, if_pos h6]
      congr 1
      funext i
      by_cases hi : i = 6 <;> by_cases hj : i = 5 <;> simp_all
    · simp only [World.effect, List.cons_append, List.nil_append, if_true, List.foldl_cons, List.foldl_nil, World.act, World.put, if_pos h5, if_pos h6]
      congr 1
      funext i
      by_cases hi : i = 6 <;> by_cases hj : i = 5 <;> simp_all
  rw [he]
  refine ⟨⟨h.tree, h.spaced, h.above, h.seven, h.fresh, h.wf, ?_⟩, [.ran c vals w.snap x], rfl, ?_, ?_, ?_, fun hm _ => hm⟩
  · intro i h1 h2
    show (if i = 5 then on else if i = 6 then !on else w.dis i) = false
    rw [if_neg h1, if_neg h2]; exact h.others i h1 h2
  · exact (htold _).symm
  · show w.app.ub = true ↔ _
    simp [hnb]
  · intro o _
    show on = (chosenBy o (.ran c vals w.snap x) == some true) ∧ (!on) = (chosenBy o (.ran c vals w.snap x) == some false)
    rw [hch]; cases on <;> decide

theorem calculates_acts (s : Plugins.St) (rs : List Int) (text : Str) : (calculates s rs text).acts = [] ∨ ∃ t, (calculates s rs text).acts = [.out t] := by
  unfold calculates
  split
  · exact .inr ⟨_, rfl⟩
  · exact .inl rfl

theorem call_exn (pf : Platform) (b : Bool) (s : Plugins.St) (f : Fn) (vals : List Value) : (call pf b s f vals).exn = none := by
  unfold call
  split <;> first | rfl | (unfold load; split <;> rfl) | (unfold calculates; split <;> rfl) | (split <;> rfl)

/-- Functions that only write, and have no undefined behaviour. -/
theorem keeps_writing {pf : Platform} {w : PWorld} {c : Cmd} {vals : List Value} {f : Fn} (x : Option Exn) {e : Effect Plugins.St} (hc : c.fn = f.code)
    (h : toldBy [] (.ran c vals w.snap x) = [] ∧ (∀ ps, toldBy ps (.ran c vals w.snap x) = ps) ∧ (∀ o, chosenBy o (.ran c vals w.snap x) = o)) (ha : e.acts = [] ∨ ∃ t, e.acts = [.out t]) (hs : e.app = w.app)
    (hr : results (.ran c vals w.snap x) = []) (hu : f ≠ .upper ∨ ∀ a, vals ≠ [.str a]) : Keeps pf w ((w.effect e).note (.ran c vals w.snap x)) :=
  keeps_quiet x ha (by rw [hs]) (by rw [hs]) h.2.1 h.2.2 (by
    have hn : ¬ Breaks pf (.ran c vals w.snap x) := calm_call hr (hu.imp (fun hu => by rw [hc, ne_eq, code_inj]; exact hu) (fun h => h))
    rw [hs]; simp [hn])

theorem keeps_call {pf : Platform} {b : Bool} {w : PWorld} {c : Cmd} {vals : List Value} {f : Fn} (hc : c.fn = f.code) (x : Option Exn) : Keeps pf w ((w.effect (call pf b w.app f vals)).note (.ran c vals w.snap x)) := by
  have same : ∀ {g : Fn}, f = g → (c.fn = g.code) := fun h => h ▸ hc
  by_cases hl : f = .load
  · subst hl
    by_cases hv : ∃ n, vals = [.str n]
    · obtain ⟨n, rfl⟩ := hv
      exact keeps_load hc x
    · have e : call pf b w.app .load vals = ⟨w.app, [], none⟩ := by unfold call; split <;> first | rfl | (rename_i h; cases h; done) | (rename_i n _ _; exact absurd ⟨_, rfl⟩ hv)
      have ht : ∀ ps, toldBy ps (.ran c vals w.snap x) = ps := by
        intro ps; unfold toldBy; split
        · rename_i he; cases he; exact absurd ⟨_, rfl⟩ hv
        · rfl
      rw [e]
      exact keeps_writing x hc ⟨ht _, ht, fun o => by simp [chosenBy, hc, code_inj]⟩ (.inl rfl) rfl (results_other (fun h => by rw [hc] at h; simp [code_inj] at h) (fun h => by rw [hc] at h; simp [code_inj] at h)) (.inl (by decide))
  by_cases hul : f = .unload
  · subst hul
    by_cases hv : ∃ n, vals = [.str n]
    · obtain ⟨n, rfl⟩ := hv
      exact keeps_unload hc x
    · have e : call pf b w.app .unload vals = ⟨w.app, [], none⟩ := by unfold call; split <;> first | rfl | (rename_i h; cases h; done) | (rename_i n _ _; exact absurd ⟨_, rfl⟩ hv)
      have ht : ∀ ps, toldBy ps (.ran c vals w.snap x) = ps := by
        intro ps; unfold toldBy; split
        · rename_i he; cases he; exact absurd ⟨_, rfl⟩ hv
        · rfl
      rw [e]
      exact keeps_writing x hc ⟨ht _, ht, fun o => by simp [chosenBy, hc, code_inj]⟩ (.inl rfl) rfl (results_other (fun h => by rw [hc] at h; simp [code_inj] at h) (fun h => by rw [hc] at h; simp [code_inj] at h)) (.inl (by decide))
  by_cases h3 : f = .color
  · subst h3; exact keeps_color true hc x _
  by_cases h4 : f = .nocolor
  · subst h4; exact keeps_color false hc x _
  have q := quiet hl hul h3 h4 hc vals w.snap x
  have q' := And.intro (q.1 []) q
  have res : (f = .add2 ∨ f = .sub → ∀ a b, vals ≠ [.int a, .int b]) → (f = .add3 → ∀ a b d, vals ≠ [.int a, .int b, .int d]) → results (.ran c vals w.snap x) = [] := by
    intro r1 r2
    refine results_other (fun h => r1 ?_) (fun h => r2 ?_)
    · rw [hc, code_inj, code_inj] at h; exact h
    · rw [hc, code_inj] at h; exact h
  unfold call
  split
  · exact keeps_writing x hc q' (.inr ⟨_, rfl⟩) rfl (res (by simp) (by simp)) (.inl (by decide))
  · exact keeps_writing x hc q' (.inr ⟨_, rfl⟩) rfl (res (by simp) (by simp)) (.inl (by decide))
  · exact absurd rfl hl
  · exact absurd rfl hul
  · exact absurd rfl h3
  · exact absurd rfl h4
  · rename_i y z
    have r : results (.ran c [.int y, .int z] w.snap x) = [y + z] := by simp [results, hc]
    obtain ⟨u1, u2, u3⟩ := calculates_ub (pf := pf) w.app (.ran c [.int y, .int z] w.snap x) [y + z] (number y ++ bs!" + " ++ number z ++ bs!" = " ++ number (y + z) ++ bs!"\n") r (fun _ _ _ _ h => by cases h)
    exact keeps_quiet x (calculates_acts ..) u2 u3 q.1 q.2 u1
  · rename_i y z v
    have r : results (.ran c [.int y, .int z, .int v] w.snap x) = [y + z, y + z + v] := by simp [results, hc, code_inj]
    obtain ⟨u1, u2, u3⟩ := calculates_ub (pf := pf) w.app (.ran c [.int y, .int z, .int v] w.snap x) [y + z, y + z + v] (number y ++ bs!" + " ++ number z ++ bs!" + " ++ number v ++ bs!" = " ++ number (y + z + v) ++ bs!"\n") r (fun _ _ _ _ h => by cases h)
    exact keeps_quiet x (calculates_acts ..) u2 u3 q.1 q.2 u1
  · rename_i y z
    have r : results (.ran c [.int y, .int z] w.snap x) = [y - z] := by simp [results, hc, code_inj]
    obtain ⟨u1, u2, u3⟩ := calculates_ub (pf := pf) w.app (.ran c [.int y, .int z] w.snap x) [y - z] (number y ++ bs!" - " ++ number z ++ bs!" = " ++ number (y - z) ++ bs!"\n") r (fun _ _ _ _ h => by cases h)
    exact keeps_quiet x (calculates_acts ..) u2 u3 q.1 q.2 u1
  · exact keeps_writing x hc q' (.inr ⟨_, rfl⟩) rfl (res (by simp) (by simp)) (.inl (by decide))
  · rename_i a
    have hb : Breaks pf (.ran c [.str a] w.snap x) ↔ a.any pf.ctypeUB = true := by
      simp only [Breaks, res (by simp) (by simp), List.any_eq_true]
      constructor
      · rintro (⟨y, hy, _⟩ | ⟨c', a', s', x', he, _, y, hy, hu⟩)
        · cases hy
        · cases he; exact ⟨y, hy, hu⟩
      · rintro ⟨y, hy, hu⟩
        exact .inr ⟨c, a, _, _, rfl, hc, y, hy, hu⟩
    split
    · rename_i ha
      exact keeps_quiet x (.inl rfl) rfl rfl q.1 q.2 (by rw [hb]; simp [ha])
    · rename_i ha
      exact keeps_quiet x (.inr ⟨_, rfl⟩) rfl rfl q.1 q.2 (by rw [hb]; simp [ha, writes])
  · exact keeps_writing x hc q' (.inr ⟨_, rfl⟩) rfl (res (by simp) (by simp)) (.inl (by decide))
  · rename_i g1 g2 g3 g4 g5 g6 g7 g8 g9 g10 g11 g12
    refine keeps_writing x hc q' (.inl rfl) rfl (res ?_ ?_) ?_
    · rintro (rfl | rfl) a b rfl
      · exact g8 a b rfl rfl
      · exact g10 a b rfl rfl
    · rintro rfl a b d rfl
      exact g9 a b d rfl rfl
    · by_cases hu : f = .upper
      · right; rintro a rfl; exact g12 a hu rfl
      · exact .inl hu

theorem closed_keeps (pf : Platform) (b : Bool) : Closed (Plugins.app pf b) (Keeps pf) where
  refl := keeps_refl pf
  trans := keeps_trans
  handler := by
    intro c vals w
    show Keeps pf w ((w.effect ((Plugins.app pf b).handler c.fn w.app vals)).note _)
    cases hf : Fn.ofCode c.fn with
    | some f =>
      have he : (Plugins.app pf b).handler c.fn w.app vals = call pf b w.app f vals := by show (match Fn.ofCode c.fn with | some f => call pf b w.app f vals | none => _) = _; rw [hf]
      rw [he]
      exact keeps_call (ofCode_code hf) _
    | none =>
      have he : (Plugins.app pf b).handler c.fn w.app vals = ⟨w.app, [], none⟩ := by show (match Fn.ofCode c.fn with | some f => call pf b w.app f vals | none => _) = _; rw [hf]
      have hne : ∀ g : Fn, c.fn ≠ g.code := by intro g hg; rw [hg] at hf; cases g <;> cases hf
      rw [he]
      refine keeps_quiet none (.inl rfl) rfl rfl ?_ ?_ ?_
      · intro ps; unfold toldBy; split
        · rename_i h; cases h; rw [if_neg (hne _), if_neg (hne _)]
        · rfl
      · intro o; simp only [chosenBy, if_neg (hne .color), if_neg (hne .nocolor)]
      · have := calm_call (pf := pf) (c := c) (vals := vals) (sn := w.snap) (x := none) (results_other (fun h => (h.elim (hne _) (hne _)).elim) (fun h => (hne _ h).elim)) (.inl (hne _))
        simp [this]
  note := fun w e he => keeps_note w e (.inl he) w.storage w.exit
  put := fun w s => keeps_same rfl rfl rfl rfl rfl rfl (.inl rfl) rfl
  exception := fun f hf => by cases hf
  wrong := fun f hf => by cases hf
  exitSession := fun f hf w => by cases hf; exact keeps_same rfl rfl rfl rfl rfl rfl (.inl rfl) rfl
  exitGlobal := fun f hf w => by cases hf; exact keeps_same rfl rfl rfl rfl rfl rfl (.inl rfl) rfl
  enterSession := fun f hf => by cases hf
  enterGlobal := fun f hf => by cases hf
  enter := fun w i hi => keeps_same rfl rfl rfl rfl rfl rfl (.inr hi) rfl
  saved := fun w l st => keeps_note w (.saved l) (.inr ⟨l, rfl⟩) st true
  unsaved := fun w st => keeps_same rfl rfl rfl rfl rfl rfl (.inl rfl) rfl

theorem good_boot (st : Style) : Good (boot st) where
  tree := rfl
  spaced := .nil
  above := fun _ h => by cases h
  seven := Nat.le_refl _
  fresh := by
    intro i hi
    have : i ∈ [0, 1, 2, 3, 4, 5, 6] := hi
    simp only [List.mem_cons, List.not_mem_nil, or_false] at this
    show i < 7
    omega
  wf := ⟨by show List.Nodup [0, 1, 2, 3, 4, 5, 6]; decide, fun i hi => hi⟩
  others := fun _ _ _ => rfl

theorem ran_keeps {pf : Platform} {b : Bool} {st : Style} {w : PWorld} (h : Ran pf b st w) : Keeps pf (boot st) w :=
  exec_closed (closed_keeps pf b) (fun _ _ h => h.elim) (fun _ _ => keeps_same rfl rfl rfl rfl rfl rfl (.inl rfl) rfl) (fun _ _ => keeps_same rfl rfl rfl rfl rfl rfl (.inl rfl) rfl) h

theorem ran_good {pf : Platform} {b : Bool} {st : Style} {w : PWorld} (h : Ran pf b st w) : Good w := (ran_keeps h (good_boot st)).1

theorem plugins_tame (pf : Platform) (b : Bool) : (Plugins.app pf b).Tame where
  handlers := by
    intro f s v what h
    have : ((Plugins.app pf b).handler f s v).exn = none := by
      show (match Fn.ofCode f with | some g => call pf b s g v | none => _).exn = none
      split
      · exact call_exn ..
      · rfl
    rw [this] at h; cases h
  exception := fun f hf => by cases hf
  exitSession := fun f hf s what => by cases hf; exact fun h => by cases h
  storage := fun _ _ _ h => by cases h
  exitGlobal := fun f hf s what => by cases hf; exact fun h => by cases h

/-! ### Lines -/

theorem not_global {pf : Platform} {t : Str} {ts : List Str} (h : t ∉ [bs!"help", bs!"exit", bs!"history", bs!"!"]) : UserLine pf (t :: ts) := by
  simp only [List.mem_cons, List.not_mem_nil, or_false, not_or] at h
  refine ⟨by simp, ?_, ?_⟩
  · intro g hg
    cases hg <;> simp_all
  · intro arg he
    cases he
    exact absurd rfl h.2.2.2

theorem execCmd_hit {σ τ : Type} {A : App σ τ} {c : Cmd} {ps : List Param} {t : Str} {args : List Str} {vals : List Value} {w : World σ τ} (hd : w.dis c.id = false) (hn : c.name = t) (hk : c.kind = .variadic ps) (hl : args.length = ps.length)
    (hv : convert A.plat ps args = .ok vals) (hx : (A.handler c.fn w.app vals).exn = none) :
    execCmd A c (t :: args) w = .ok ((w.effect (A.handler c.fn w.app vals)).note (.ran c vals w.snap none), .found) := by
  unfold execCmd
  rw [if_neg (by simp [hd]), hk]
  simp only [List.length_cons, hl, ne_eq, not_true_eq_false, if_false, hn, if_true, hv, callHandler, hx]

theorem execCmd_miss {σ τ : Type} {A : App σ τ} {c : Cmd} {t : Str} {args : List Str} {w : World σ τ} (hn : c.name ≠ t) : execCmd A c (t :: args) w = .ok (w, .notFound) := by
  unfold execCmd
  repeat' split
  all_goals first | rfl | (rename_i h1 h2; cases h1; done) | (rename_i h1 _ h2; cases h1; exact absurd h2 hn) | skip
  all_goals simp_all

theorem scan_miss {σ τ : Type} {A : App σ τ} {c : Cmd} {t : Str} {args : List Str} {w : World σ τ} {sub : MenuInfo → Forest → World σ τ → Res σ τ} {rest : Forest} (hn : c.name ≠ t) :
    scanEntries A (t :: args) sub (.cmd c rest) w = scanEntries A (t :: args) sub rest w := by
  rw [scanEntries, execCmd_miss hn]; simp [goOn]

theorem scan_hit {σ τ : Type} {A : App σ τ} {c : Cmd} {ps : List Param} {t : Str} {args : List Str} {vals : List Value} {w : World σ τ} {sub : MenuInfo → Forest → World σ τ → Res σ τ} {rest : Forest} (hd : w.dis c.id = false) (hn : c.name = t)
    (hk : c.kind = .variadic ps) (hl : args.length = ps.length) (hv : convert A.plat ps args = .ok vals) (hx : (A.handler c.fn w.app vals).exn = none) :
    scanEntries A (t :: args) sub (.cmd c rest) w = .ok ((w.effect (A.handler c.fn w.app vals)).note (.ran c vals w.snap none), .found) := by
  rw [scanEntries, execCmd_hit hd hn hk hl hv hx]; rfl

/-- The commands of the root menu. -/
def unloadCmd : Cmd := Plugins.cmd 4 bs!"unload" [bs!"plugin_name"] (.variadic [str]) .unload bs!"Unload the plugin specified"

/-- `unload`, typed in the root menu or reached from a menu below. -/
theorem unload_scan {pf : Platform} {b : Bool} {w : PWorld} (hg : Good w) (n : Str) (sub : MenuInfo → Forest → PWorld → Res Plugins.St Storage.Volatile) :
    scanEntries (Plugins.app pf b) [bs!"unload", n] sub (rootKids (kidsOf w.app.loaded)) w = .ok ((w.effect (unload w.app n)).note (.ran unloadCmd [.str n] w.snap none), .found) := by
  unfold rootKids
  rw [scan_miss (by decide), scan_miss (by decide), scan_miss (by decide)]
  exact scan_hit (ps := [str]) (vals := [.str n]) (hg.others 4 (by decide) (by decide)) rfl rfl rfl rfl rfl

theorem pull_scan {pf : Platform} {b : Bool} {w : PWorld} (hg : Good w) {e : Item} (he : e ∈ w.app.loaded) (hc : w.current = e.menu) (up : Str) (hup : up = bs!"cli" ∨ up = bs!"..") (n : Str) :
    scanCurrent (Plugins.app pf b) [up, bs!"unload", n] w = .ok ((w.effect (unload w.app n)).note (.ran unloadCmd [.str n] w.snap none), .found) := by
  have h7 := (hg.above e he).1
  have d : ∀ k : Nat, k ≠ 5 → k ≠ 6 → w.dis k = false := hg.others
  have de := d e.menu (by omega) (by omega)
  unfold scanCurrent
  rw [hc, hg.locate he]
  have first : ∀ sub, scanEntries (Plugins.app pf b) [up, bs!"unload", n] sub (e.plug.kids e.menu) w = .ok (w, .notFound) := by
    intro sub
    cases hp : e.plug <;> rcases hup with rfl | rfl <;> (unfold Plug.kids; rw [scan_miss (by simp [Plugins.cmd]), scan_miss (by simp [Plugins.cmd]), scan_miss (by simp [Plugins.cmd])]; rfl)
  simp only [scanCmds, first]
  rw [if_neg (show ¬ w.dis (e.plug.info e.menu).id = true by simp [Plug.info, de])]
  simp only [goOn, if_true]
  rw [if_neg (by simp), handleCommand, if_neg (show ¬ w.dis rootInfo.id = true by simp [rootInfo, d]), if_pos (by rcases hup with rfl | rfl <;> simp [rootInfo]), if_neg (by simp), unload_scan hg]
  rfl

end Verif.Plugged
