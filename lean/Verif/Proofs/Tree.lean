import Verif.Proofs.Frame
import Verif.Spec.Exec

set_option linter.unusedSimpArgs false
set_option linter.unusedVariables false

/-!
# Menus: identities, finding a menu, inserting and removing
-/

namespace Verif
open Spec

namespace Forest

theorem menuIds_ids : ∀ (f : Forest) (i : Id), i ∈ f.menuIds → i ∈ f.ids := by
  intro f
  induction f with
  | nil => intro i h; cases h
  | cmd c rest ih => intro i h; exact List.mem_cons_of_mem _ (ih i h)
  | menu m k rest ih1 ih2 =>
    intro i h
    simp only [menuIds, ids, List.mem_cons, List.mem_append] at h ⊢
    rcases h with h | h | h
    · exact .inl h
    · exact .inr (.inl (ih1 i h))
    · exact .inr (.inr (ih2 i h))

theorem append_ids (f g : Forest) : (f.append g).ids = f.ids ++ g.ids := by
  induction f with
  | nil => rfl
  | cmd c rest ih => simp [append, ids, ih]
  | menu m k rest _ ih => simp [append, ids, ih]

theorem append_menuIds (f g : Forest) : (f.append g).menuIds = f.menuIds ++ g.menuIds := by
  induction f with
  | nil => rfl
  | cmd c rest ih => simp [append, menuIds, ih]
  | menu m k rest _ ih => simp [append, menuIds, ih]

/-! ### Finding a menu -/

/-- `p` is a menu somewhere in the forest, with its chain of parents. -/
inductive Sub : Path → Forest → Path → Prop
  | here {anc f m k} : .menu m k ∈ entries f → Sub anc f ((m, k) :: anc)
  | deep {anc f m k p} : .menu m k ∈ entries f → Sub ((m, k) :: anc) k p → Sub anc f p

theorem entry_menuIds {f : Forest} {m : MenuInfo} {k : Forest} (h : .menu m k ∈ entries f) : m.id ∈ f.menuIds ∧ ∀ i ∈ k.menuIds, i ∈ f.menuIds := by
  induction f with
  | nil => cases h
  | cmd c rest ih =>
    rcases List.mem_cons.1 h with h | h
    · cases h
    · exact ih h
  | menu m' k' rest _ ih =>
    simp only [menuIds, List.mem_cons, List.mem_append]
    rcases List.mem_cons.1 h with h | h
    · cases h; exact ⟨.inl rfl, fun i hi => .inr (.inl hi)⟩
    · exact ⟨.inr (.inr (ih h).1), fun i hi => .inr (.inr ((ih h).2 i hi))⟩

theorem entry_ids {f : Forest} {m : MenuInfo} {k : Forest} (h : .menu m k ∈ entries f) : m.id ∈ f.ids ∧ ∀ i ∈ k.ids, i ∈ f.ids := by
  induction f with
  | nil => cases h
  | cmd c rest ih =>
    rcases List.mem_cons.1 h with h | h
    · cases h
    · exact ⟨List.mem_cons_of_mem _ (ih h).1, fun i hi => List.mem_cons_of_mem _ ((ih h).2 i hi)⟩
  | menu m' k' rest _ ih =>
    simp only [ids, List.mem_cons, List.mem_append]
    rcases List.mem_cons.1 h with h | h
    · cases h; exact ⟨.inl rfl, fun i hi => .inr (.inl hi)⟩
    · exact ⟨.inr (.inr (ih h).1), fun i hi => .inr (.inr ((ih h).2 i hi))⟩

theorem entry_cmd_ids {f : Forest} {c : Cmd} (h : .cmd c ∈ entries f) : c.id ∈ f.ids := by
  induction f with
  | nil => cases h
  | cmd c' rest ih =>
    rcases List.mem_cons.1 h with h | h
    · cases h; exact List.mem_cons_self ..
    · exact List.mem_cons_of_mem _ (ih h)
  | menu m' k' rest _ ih =>
    simp only [ids, List.mem_cons, List.mem_append]
    rcases List.mem_cons.1 h with h | h
    · cases h
    · exact .inr (.inr (ih h))

theorem sub_head {anc : Path} {f : Forest} {p : Path} (h : Sub anc f p) : ∃ m k q, p = (m, k) :: q ∧ m.id ∈ f.menuIds := by
  induction h with
  | here h => exact ⟨_, _, _, rfl, (entry_menuIds h).1⟩
  | deep h _ ih =>
    obtain ⟨m, k, q, rfl, hm⟩ := ih
    exact ⟨m, k, q, rfl, (entry_menuIds h).2 _ hm⟩

theorem locate_none {f : Forest} {id : Id} {anc : Path} (h : id ∉ f.menuIds) : f.locate id anc = none := by
  induction f generalizing anc with
  | nil => rfl
  | cmd c rest ih => exact ih h
  | menu m k rest ih1 ih2 =>
    simp only [menuIds, List.mem_cons, List.mem_append, not_or] at h
    simp only [locate]
    rw [if_neg (fun he => h.1 he.symm), ih1 h.2.1]
    exact ih2 h.2.2

theorem locate_sub {f : Forest} {id : Id} : ∀ {anc p : Path}, f.locate id anc = some p → Sub anc f p ∧ ∃ m k q, p = (m, k) :: q ∧ m.id = id := by
  induction f with
  | nil => intro anc p h; cases h
  | cmd c rest ih =>
    intro anc p h
    obtain ⟨hs, hh⟩ := ih (anc := anc) (p := p) h
    refine ⟨?_, hh⟩
    cases hs with
    | here hm => exact .here (List.mem_cons_of_mem _ hm)
    | deep hm hs => exact .deep (List.mem_cons_of_mem _ hm) hs
  | menu m k rest ih1 ih2 =>
    intro anc p h
    simp only [locate] at h
    split at h
    · rename_i he
      cases h
      exact ⟨.here (List.mem_cons_self ..), m, k, anc, rfl, he⟩
    · split at h
      · rename_i p' hp
        cases h
        obtain ⟨hs, hh⟩ := ih1 hp
        exact ⟨.deep (List.mem_cons_self ..) hs, hh⟩
      · obtain ⟨hs, hh⟩ := ih2 h
        refine ⟨?_, hh⟩
        cases hs with
        | here hm => exact .here (List.mem_cons_of_mem _ hm)
        | deep hm hs => exact .deep (List.mem_cons_of_mem _ hm) hs

theorem sub_locate {f : Forest} : ∀ {anc p : Path} {m : MenuInfo} {k : Forest} {q : Path}, f.ids.Nodup → Sub anc f p → p = (m, k) :: q →
    f.locate m.id anc = some p := by
  induction f with
  | nil =>
    intro anc p m k q _ h _
    cases h with
    | here h => cases h
    | deep h => cases h
  | cmd c rest ih =>
    intro anc p m k q hn h he
    simp only [ids, List.nodup_cons] at hn
    refine ih hn.2 ?_ he
    cases h with
    | here h =>
      rcases List.mem_cons.1 h with h | h
      · cases h
      · exact .here h
    | deep h hs =>
      rcases List.mem_cons.1 h with h | h
      · cases h
      · exact .deep h hs
  | menu m' k' rest ih1 ih2 =>
    intro anc p m k q hn h he
    simp only [ids, List.nodup_cons, List.mem_append, not_or, List.nodup_append] at hn
    obtain ⟨⟨n1, n2⟩, n3, n4, n5⟩ := hn
    have inRest : Sub anc rest p → (Forest.menu m' k' rest).locate m.id anc = some p := by
      intro hs
      obtain ⟨m2, k2, q2, rfl, hm⟩ := sub_head hs
      cases he
      have hmi := menuIds_ids _ _ hm
      simp only [locate]
      rw [if_neg (fun he : m'.id = m.id => n2 (he ▸ hmi)), locate_none (fun hk => n5 _ (menuIds_ids _ _ hk) _ hmi rfl)]
      exact ih2 n4 hs rfl
    cases h with
    | here h =>
      rcases List.mem_cons.1 h with h | h
      · cases h
        cases he
        simp [locate]
      · exact inRest (.here h)
    | deep h hs =>
      rcases List.mem_cons.1 h with h | h
      · cases h
        obtain ⟨m2, k2, q2, rfl, hm⟩ := sub_head hs
        cases he
        simp only [locate]
        rw [if_neg (fun he : m'.id = m.id => n1 (he ▸ menuIds_ids _ _ hm)), ih1 n3 hs rfl]
      · exact inRest (.deep h hs)

theorem sub_down {anc : Path} {f : Forest} {p : MenuInfo} {k : Forest} {q : Path} {m : MenuInfo} {k' : Forest}
    (h : Sub anc f ((p, k) :: q)) (hm : .menu m k' ∈ entries k) : Sub anc f ((m, k') :: (p, k) :: q) := by
  generalize he : (p, k) :: q = r at h
  induction h with
  | here h => cases he; exact .deep h (.here hm)
  | deep h _ ih => exact .deep h (ih he)

theorem sub_up {anc : Path} {f : Forest} {x : MenuInfo × Forest} {q : Path} (h : Sub anc f (x :: q)) : q = anc ∨ Sub anc f q := by
  generalize he : x :: q = r at h
  induction h with
  | here h => cases he; exact .inl rfl
  | deep h hs ih =>
    rcases ih he with rfl | ih
    · exact .inr (.here h)
    · exact .inr (.deep h ih)

end Forest

namespace Tree

/-- All identities are different. -/
def WF (t : Tree) : Prop := t.ids.Nodup

theorem locate_self {t : Tree} {id : Id} {p : Path} (h : t.locate id = some p) : ∃ m k q, p = (m, k) :: q ∧ m.id = id := by
  unfold locate at h
  split at h
  · rename_i he; cases h; exact ⟨_, _, _, rfl, he⟩
  · exact (Forest.locate_sub h).2

/-- A menu of the tree, with its chain of parents. -/
def Sub (t : Tree) (p : Path) : Prop := p = [(t.root, t.kids)] ∨ Forest.Sub [(t.root, t.kids)] t.kids p

theorem locate_sub {t : Tree} {id : Id} {p : Path} (h : t.locate id = some p) : t.Sub p := by
  unfold locate at h
  split at h
  · cases h; exact .inl rfl
  · exact .inr (Forest.locate_sub h).1

theorem sub_locate {t : Tree} (hn : t.WF) {m : MenuInfo} {k : Forest} {q : Path} (h : t.Sub ((m, k) :: q)) : t.locate m.id = some ((m, k) :: q) := by
  simp only [WF, ids, List.nodup_cons] at hn
  unfold locate
  rcases h with h | h
  · cases h; simp
  · obtain ⟨m2, k2, q2, he, hm⟩ := Forest.sub_head h
    cases he
    rw [if_neg (fun he : t.root.id = m.id => hn.1 (he ▸ Forest.menuIds_ids _ _ hm))]
    exact Forest.sub_locate hn.2 h rfl

/-- From a menu of the tree a step leads to a menu of the tree. -/
theorem sub_step {t : Tree} {dis : Id → Bool} {p q : Path} {w : Str} (h : t.Sub p) (hs : Step dis p w q) : t.Sub q := by
  cases hs with
  | down hm hd =>
    rcases h with h | h
    · cases h; exact .inr (.here hm)
    · exact .inr (Forest.sub_down h hm)
  | up hd ht =>
    rcases h with h | h
    · cases h
    · rcases Forest.sub_up h with h | h
      · exact .inl h
      · exact .inr h

theorem sub_walk {t : Tree} {dis : Id → Bool} {p q : Path} {ws : List Str} (h : t.Sub p) (hs : Walk dis p ws q) : t.Sub q := by
  induction hs with
  | stay p => exact h
  | step hs _ ih => exact ih (sub_step h hs)

theorem sub_ids {t : Tree} {m : MenuInfo} {k : Forest} {q : Path} (h : t.Sub ((m, k) :: q)) : m.id ∈ t.ids ∧ ∀ i ∈ k.ids, i ∈ t.ids := by
  have key : ∀ (anc : Path) (f : Forest) (p : Path), Forest.Sub anc f p → p = (m, k) :: q → m.id ∈ f.ids ∧ ∀ i ∈ k.ids, i ∈ f.ids := by
    intro anc f p hs
    induction hs with
    | here hm => intro he; cases he; exact Forest.entry_ids hm
    | deep hm _ ih =>
      intro he
      obtain ⟨h1, h2⟩ := ih he
      obtain ⟨_, g⟩ := Forest.entry_ids hm
      exact ⟨g _ h1, fun i hi => g i (h2 i hi)⟩
  rcases h with h | h
  · cases h; exact ⟨by simp [ids], fun i hi => by simp [ids, hi]⟩
  · obtain ⟨h1, h2⟩ := key _ _ _ h rfl
    exact ⟨by simp [ids, h1], fun i hi => by simp [ids, h2 i hi]⟩

end Tree

/-! ### Inserting and removing -/

namespace Forest

theorem insertAt_count (mid : Id) (new : Forest) (i : Id) (f : Forest) :
    (insertAt mid new f).ids.count i ≤ f.ids.count i + f.menuIds.count mid * new.ids.count i := by
  induction f with
  | nil => simp [insertAt, ids]
  | cmd c rest ih => simp only [insertAt, ids, menuIds, List.count_cons]; omega
  | menu m k rest ih1 ih2 =>
    simp only [insertAt, ids, menuIds, List.count_cons, List.count_append, Nat.add_mul, Nat.mul_add]
    split
    · rename_i he
      subst he
      simp only [append_ids, List.count_append, beq_self_eq_true, if_true, Nat.one_mul]
      omega
    · have : ¬ (m.id == mid) = true := by simpa using ‹¬ m.id = mid›
      simp only [this, if_false, Nat.zero_mul]
      omega

theorem menuIds_count_le (i : Id) (f : Forest) : f.menuIds.count i ≤ f.ids.count i := by
  induction f with
  | nil => simp [menuIds]
  | cmd c rest ih => simp only [ids, menuIds, List.count_cons]; omega
  | menu m k rest ih1 ih2 => simp only [ids, menuIds, List.count_cons, List.count_append]; omega

theorem insertAt_mem {mid : Id} {new : Forest} {i : Id} {f : Forest} (h : i ∈ (insertAt mid new f).ids) : i ∈ f.ids ∨ i ∈ new.ids := by
  have := insertAt_count mid new i f
  rw [← List.count_pos_iff] at h
  by_cases h1 : i ∈ f.ids
  · exact .inl h1
  · refine .inr ?_
    rw [← List.count_pos_iff]
    rw [← List.count_eq_zero] at h1
    apply Nat.pos_of_ne_zero
    intro h0
    rw [h1, h0] at this
    omega

theorem remove_sublist (id : Id) (f : Forest) : (f.remove id).ids.Sublist f.ids := by
  induction f with
  | nil => exact .slnil
  | cmd c rest ih =>
    simp only [remove]
    split
    · exact .cons _ ih
    · exact .cons_cons _ ih
  | menu m k rest ih1 ih2 =>
    simp only [remove]
    split
    · exact .cons _ (ih2.trans (List.sublist_append_right ..))
    · exact .cons_cons _ (ih1.append ih2)

theorem remove_menuIds_sublist (id : Id) (f : Forest) : (f.remove id).menuIds.Sublist f.menuIds := by
  induction f with
  | nil => exact .slnil
  | cmd c rest ih =>
    simp only [remove]
    split
    · exact ih
    · exact ih
  | menu m k rest ih1 ih2 =>
    simp only [remove]
    split
    · exact .cons _ (ih2.trans (List.sublist_append_right ..))
    · exact .cons_cons _ (ih1.append ih2)

theorem under_ids {id : Id} {f : Forest} {i : Id} (h : i ∈ under id f) : i ∈ f.ids := by
  induction f with
  | nil => cases h
  | cmd c rest ih =>
    simp only [under, ids, List.mem_append, List.mem_cons] at h ⊢
    rcases h with h | h
    · split at h
      · exact .inl (List.mem_singleton.1 h)
      · cases h
    · exact .inr (ih h)
  | menu m k rest ih1 ih2 =>
    simp only [under, ids, List.mem_append, List.mem_cons] at h ⊢
    rcases h with h | h
    · split at h
      · rcases List.mem_cons.1 h with h | h
        · exact .inl h
        · exact .inr (.inl h)
      · exact .inr (.inl (ih1 h))
    · exact .inr (.inr (ih2 h))

/-- Removing an object takes exactly this object and everything in it out of the menus. -/
theorem mem_remove {id : Id} {f : Forest} (hn : f.ids.Nodup) (i : Id) : i ∈ (f.remove id).ids ↔ i ∈ f.ids ∧ i ∉ under id f := by
  induction f with
  | nil => simp [remove, ids]
  | cmd c rest ih =>
    simp only [ids, List.nodup_cons] at hn
    simp only [remove, under, ids, List.mem_append, List.mem_cons, not_or]
    split
    · rename_i he
      rw [ih hn.2]
      constructor
      · rintro ⟨h1, h2⟩
        refine ⟨.inr h1, ?_, h2⟩
        intro h
        rw [List.mem_singleton.1 h] at h1
        exact hn.1 h1
      · rintro ⟨h1, h2, h3⟩
        rcases h1 with h1 | h1
        · exact absurd (List.mem_singleton.2 h1) h2
        · exact ⟨h1, h3⟩
    · rename_i he
      simp only [ids, List.mem_cons, ih hn.2]
      constructor
      · rintro (h | ⟨h1, h2⟩)
        · refine ⟨.inl h, by simp, ?_⟩
          intro hu
          exact hn.1 (h ▸ under_ids hu)
        · exact ⟨.inr h1, by simp, h2⟩
      · rintro ⟨h1 | h1, _, h3⟩
        · exact .inl h1
        · exact .inr ⟨h1, h3⟩
  | menu m k rest ih1 ih2 =>
    simp only [ids, List.nodup_cons, List.mem_append, not_or, List.nodup_append] at hn
    obtain ⟨⟨n1, n2⟩, n3, n4, n5⟩ := hn
    simp only [remove, under, ids, List.mem_append, List.mem_cons, not_or]
    split
    · rename_i he
      rw [ih2 n4]
      constructor
      · rintro ⟨h1, h2⟩
        refine ⟨.inr (.inr h1), ?_, h2⟩
        intro h
        rcases List.mem_cons.1 h with h | h
        · subst h; exact n2 h1
        · exact n5 _ h _ h1 rfl
      · rintro ⟨h1, h2, h3⟩
        simp only [List.mem_cons, not_or] at h2
        rcases h1 with h1 | h1 | h1
        · exact absurd h1 h2.1
        · exact absurd h1 h2.2
        · exact ⟨h1, h3⟩
    · rename_i he
      simp only [ids, List.mem_cons, List.mem_append, ih1 n3, ih2 n4]
      constructor
      · rintro (h | ⟨h1, h2⟩ | ⟨h1, h2⟩)
        · subst h
          exact ⟨.inl rfl, fun h => n1 (under_ids h), fun h => n2 (under_ids h)⟩
        · exact ⟨.inr (.inl h1), h2, fun h => n5 _ h1 _ (under_ids h) rfl⟩
        · exact ⟨.inr (.inr h1), fun h => n5 _ (under_ids h) _ h1 rfl, h2⟩
      · rintro ⟨h1 | h1 | h1, h2, h3⟩
        · exact .inl h1
        · exact .inr (.inl ⟨h1, h2⟩)
        · exact .inr (.inr ⟨h1, h3⟩)

theorem under_self {id : Id} {f : Forest} (h : id ∈ f.ids) : id ∈ under id f := by
  induction f with
  | nil => cases h
  | cmd c rest ih =>
    simp only [under, ids, List.mem_append, List.mem_cons] at h ⊢
    rcases h with h | h
    · exact .inl (by simp [h])
    · exact .inr (ih h)
  | menu m k rest ih1 ih2 =>
    simp only [under, ids, List.mem_append, List.mem_cons] at h ⊢
    by_cases he : m.id = id
    · exact .inl (by simp [he])
    · rw [if_neg he]
      rcases h with h | h | h
      · exact absurd h.symm he
      · exact .inl (ih1 h)
      · exact .inr (ih2 h)

end Forest

/-! ### Invariants of the menus -/

section
variable {σ τ : Type}

/-- All identities in the menus are different and none is new. -/
structure TreeWF (t : Tree) (used : List Id) : Prop where
  nodup : t.WF
  used : ∀ i ∈ t.ids, i ∈ used

/-- What all functions of the application do satisfies a condition. -/
structure App.Only (A : App σ τ) (OK : Act → Prop) : Prop where
  handler : ∀ f s v, ∀ a ∈ (A.handler f s v).acts, OK a
  exception : ∀ f, A.onException = some f → ∀ s l e, ∀ a ∈ (f s l e).acts, OK a
  wrong : ∀ f, A.onWrong = some f → ∀ s l, ∀ a ∈ (f s l).acts, OK a
  exitSession : ∀ f, A.exitSession = some f → ∀ s, ∀ a ∈ (f s).acts, OK a
  exitGlobal : ∀ f, A.exitGlobal = some f → ∀ s, ∀ a ∈ (f s).acts, OK a
  enterSession : ∀ f, A.enterSession = some f → ∀ s, ∀ a ∈ (f s).acts, OK a
  enterGlobal : ∀ f, A.enterGlobal = some f → ∀ s, ∀ a ∈ (f s).acts, OK a

theorem App.only_true (A : App σ τ) : A.Only fun _ => True :=
  ⟨fun _ _ _ _ _ => trivial, fun _ _ _ _ _ _ _ => trivial, fun _ _ _ _ _ _ => trivial, fun _ _ _ _ _ => trivial, fun _ _ _ _ _ => trivial,
    fun _ _ _ _ _ => trivial, fun _ _ _ _ _ => trivial⟩

/-- Menus and used identities satisfy `Q` before and after, and whenever a handler is called in between. -/
def Kept (Q : Tree → List Id → Prop) (w w' : World σ τ) : Prop := Q w.tree w.used →
  Q w'.tree w'.used ∧ ∃ evs, w'.log = w.log ++ evs ∧ ∀ c v s e, .ran c v s e ∈ evs → ∃ u, Q s.tree u

theorem kept_refl {Q : Tree → List Id → Prop} (w : World σ τ) : Kept Q w w := fun h => ⟨h, [], by simp, by simp⟩

theorem kept_trans {Q : Tree → List Id → Prop} {a b c : World σ τ} (h1 : Kept Q a b) (h2 : Kept Q b c) : Kept Q a c := by
  intro h
  obtain ⟨g1, e1, l1, r1⟩ := h1 h
  obtain ⟨g2, e2, l2, r2⟩ := h2 g1
  refine ⟨g2, e1 ++ e2, by rw [l2, l1, List.append_assoc], ?_⟩
  intro c v s e hm
  rcases List.mem_append.1 hm with hm | hm
  · exact r1 c v s e hm
  · exact r2 c v s e hm

theorem kept_same {Q : Tree → List Id → Prop} {w w' : World σ τ} (ht : w'.tree = w.tree) (hu : w'.used = w.used) (hl : w'.log = w.log) : Kept Q w w' :=
  fun h => ⟨by rw [ht, hu]; exact h, [], by simp [hl], by simp⟩

variable {OK : Act → Prop} {Q : Tree → List Id → Prop}

/-- Every action that satisfies the condition preserves `Q`. -/
def Stable (OK : Act → Prop) (Q : Tree → List Id → Prop) : Prop :=
  (∀ t u id, OK (.remove id) → id ∈ t.kids.ids → Q t u → Q (t.remove id) u) ∧
  (∀ t u mid new, OK (.insert mid new) → mid ∈ t.menuIds → new.ids.Nodup → (∀ i ∈ new.ids, i ∉ u) → Q t u → Q (t.insertAt mid new) (u ++ new.ids))

theorem stable_act (hQ : Stable OK Q) (w : World σ τ) (a : Act) (ha : OK a) (h : Q w.tree w.used) : Q (w.act a).tree (w.act a).used := by
  cases a with
  | out s => exact h
  | cout s => exact h
  | color on => exact h
  | enable id => simp only [World.act]; split <;> exact h
  | disable id => simp only [World.act]; split <;> exact h
  | remove id =>
    simp only [World.act]
    split
    · exact hQ.1 _ _ _ ha ‹_› h
    · exact h
  | insert mid new =>
    simp only [World.act]
    split
    · rename_i hc; exact hQ.2 _ _ _ _ ha hc.1 hc.2.1 hc.2.2 h
    · exact h

theorem stable_acts (hQ : Stable OK Q) (as : List Act) : ∀ (w : World σ τ), (∀ a ∈ as, OK a) → Q w.tree w.used →
    Q (as.foldl World.act w).tree (as.foldl World.act w).used := by
  induction as with
  | nil => intro w _ h; exact h
  | cons a as ih =>
    intro w ha h
    exact ih _ (fun b hb => ha b (List.mem_cons_of_mem _ hb)) (stable_act hQ w a (ha a (List.mem_cons_self ..)) h)

theorem kept_effect (hQ : Stable OK Q) (w : World σ τ) (e : Effect σ) (he : ∀ a ∈ e.acts, OK a) : Kept Q w (w.effect e) := by
  intro h
  exact ⟨stable_acts hQ e.acts { w with app := e.app } he h, [], by simp [(effect_same w e).2.1], by simp⟩

theorem closed_kept {A : App σ τ} (hQ : Stable OK Q) (hA : A.Only OK) : Closed A (Kept Q) where
  refl := kept_refl
  trans := kept_trans
  handler := by
    intro c vals w h
    obtain ⟨h1, evs, h2, _⟩ := kept_effect hQ w (A.handler c.fn w.app vals) (hA.handler _ _ _) h
    refine ⟨h1, [.ran c vals w.snap (A.handler c.fn w.app vals).exn], ?_, ?_⟩
    · simp [World.note, (effect_same w _).2.1]
    · intro c' v' s' e' hm
      cases List.mem_singleton.1 hm
      exact ⟨_, h⟩
  note := by
    intro w e he h
    refine ⟨h, [e], rfl, ?_⟩
    intro c v s x hm
    cases List.mem_singleton.1 hm
    cases he
  put := fun w s => kept_same rfl rfl rfl
  exception := fun f hf w l e => kept_effect hQ w _ (hA.exception f hf _ _ _)
  wrong := fun f hf w l => kept_effect hQ w _ (hA.wrong f hf _ _)
  exitSession := fun f hf w => kept_effect hQ w _ (hA.exitSession f hf _)
  exitGlobal := fun f hf w => kept_effect hQ w _ (hA.exitGlobal f hf _)
  enterSession := fun f hf w => kept_effect hQ w _ (hA.enterSession f hf _)
  enterGlobal := fun f hf w => kept_effect hQ w _ (hA.enterGlobal f hf _)
  enter := fun w i _ => kept_same rfl rfl rfl
  unsaved := fun w st => kept_same rfl rfl rfl
  saved := by
    intro w cmds st h
    refine ⟨h, [.saved cmds], rfl, ?_⟩
    intro c v s x hm
    cases List.mem_singleton.1 hm

theorem tree_remove_ids (t : Tree) (id : Id) : (t.remove id).ids.Sublist t.ids := by
  simp only [Tree.remove, Tree.ids]
  exact .cons_cons _ (Forest.remove_sublist id t.kids)

theorem tree_insert_mem {mid : Id} {new : Forest} {i : Id} {t : Tree} (h : i ∈ (t.insertAt mid new).ids) : i ∈ t.ids ∨ i ∈ new.ids := by
  unfold Tree.insertAt at h
  simp only [Tree.ids, List.mem_cons] at *
  split at h
  · simp only [Forest.append_ids, List.mem_append] at h
    rcases h with h | h | h
    · exact .inl (.inl h)
    · exact .inl (.inr h)
    · exact .inr h
  · rcases h with h | h
    · exact .inl (.inl h)
    · rcases Forest.insertAt_mem h with h | h
      · exact .inl (.inr h)
      · exact .inr h

theorem tree_insert_count {mid : Id} {new : Forest} {i : Id} {t : Tree} (hn : t.WF) : (t.insertAt mid new).ids.count i ≤ t.ids.count i + new.ids.count i := by
  unfold Tree.insertAt
  simp only [Tree.WF, Tree.ids, List.nodup_cons] at hn
  split
  · simp only [Tree.ids, Forest.append_ids, List.count_cons, List.count_append]; omega
  · have := Forest.insertAt_count mid new i t.kids
    have h1 : t.kids.menuIds.count mid ≤ 1 := Nat.le_trans (Forest.menuIds_count_le mid t.kids) (List.nodup_iff_count.1 hn.2 mid)
    have h2 : t.kids.menuIds.count mid * new.ids.count i ≤ 1 * new.ids.count i := Nat.mul_le_mul_right _ h1
    simp only [Tree.ids, List.count_cons]
    omega

theorem stable_wf : Stable (fun _ => True) TreeWF := by
  refine ⟨?_, ?_⟩
  · intro t u id _ _ h
    exact ⟨h.nodup.sublist (tree_remove_ids t id), fun i hi => h.used i ((tree_remove_ids t id).subset hi)⟩
  · intro t u mid new _ _ hnew hfresh h
    refine ⟨?_, ?_⟩
    · refine List.nodup_iff_count.2 fun i => ?_
      have := tree_insert_count (mid := mid) (new := new) (i := i) h.nodup
      have h1 : t.ids.count i ≤ 1 := List.nodup_iff_count.1 h.nodup i
      have h2 : new.ids.count i ≤ 1 := List.nodup_iff_count.1 hnew i
      by_cases hi : i ∈ new.ids
      · have : t.ids.count i = 0 := List.count_eq_zero.2 fun ht => hfresh i hi (h.used i ht)
        omega
      · have : new.ids.count i = 0 := List.count_eq_zero.2 hi
        omega
    · intro i hi
      rcases tree_insert_mem hi with hi | hi
      · exact List.mem_append_left _ (h.used i hi)
      · exact List.mem_append_right _ hi

/-- An object that has existed and no longer exists. -/
def Gone (i : Id) (t : Tree) (used : List Id) : Prop := i ∈ used ∧ i ∉ t.ids

theorem stable_gone (i : Id) : Stable (fun _ => True) (Gone i) := by
  refine ⟨?_, ?_⟩
  · intro t u id _ _ h
    exact ⟨h.1, fun hi => h.2 ((tree_remove_ids t id).subset hi)⟩
  · intro t u mid new _ _ hnew hfresh h
    refine ⟨List.mem_append_left _ h.1, ?_⟩
    intro hi
    rcases tree_insert_mem hi with hi | hi
    · exact h.2 hi
    · exact hfresh i hi h.1

/-! ### Removing compared with disabling -/

/-- The menu and its parents after the removal of something else. -/
def rmPath (id : Id) (p : Path) : Path := p.map fun x => (x.1, x.2.remove id)

def rmTarget (id : Id) : Target → Target
  | .cmd c args => .cmd c args
  | .menu q => .menu (rmPath id q)

theorem locate_remove (id cur : Id) : ∀ (f : Forest) (anc p : Path), f.ids.Nodup → f.locate cur anc = some p → (∀ x ∈ p, x.1.id ≠ id) →
    (f.remove id).locate cur (rmPath id anc) = some (rmPath id p) := by
  intro f
  induction f with
  | nil => intro anc p _ h; cases h
  | cmd c rest ih =>
    intro anc p hn h hp
    simp only [Forest.ids, List.nodup_cons] at hn
    simp only [Forest.remove]
    split
    · exact ih anc p hn.2 h hp
    · exact ih anc p hn.2 h hp
  | menu m k rest ih1 ih2 =>
    intro anc p hn h hp
    simp only [Forest.ids, List.nodup_cons, List.mem_append, not_or, List.nodup_append] at hn
    obtain ⟨⟨n1, n2⟩, n3, n4, n5⟩ := hn
    have key : ∀ (g : Forest) (anc p : Path), Forest.Sub anc g p → ∀ x ∈ anc, x ∈ p := by
      intro g anc p hs
      induction hs with
      | here h => intro x hx; exact List.mem_cons_of_mem _ hx
      | deep h _ ih => intro x hx; exact ih x (List.mem_cons_of_mem _ hx)
    simp only [Forest.locate] at h
    split at h
    · rename_i he
      cases h
      have : m.id ≠ id := hp (m, k) (by simp)
      simp only [Forest.remove, if_neg this, Forest.locate, if_pos he]
      rfl
    · rename_i he
      split at h
      · rename_i p' hp'
        cases h
        have hm : m.id ≠ id := hp (m, k) (key _ _ _ (Forest.locate_sub hp').1 _ (by simp))
        simp only [Forest.remove, if_neg hm, Forest.locate, if_neg he]
        have := ih1 _ _ n3 hp' hp
        simp only [rmPath, List.map_cons] at this ⊢
        rw [this]
      · rename_i hk
        simp only [Forest.remove]
        split
        · exact ih2 anc p n4 h hp
        · simp only [Forest.locate, if_neg he]
          have hno : (k.remove id).locate cur ((m, k.remove id) :: rmPath id anc) = none := by
            apply Forest.locate_none
            intro hmem
            have hcur : cur ∈ k.menuIds := (Forest.remove_menuIds_sublist id k).subset hmem
            obtain ⟨hs, m2, k2, q2, rfl, hid⟩ := Forest.locate_sub h
            obtain ⟨m3, k3, q3, he3, hm3⟩ := Forest.sub_head hs
            cases he3
            rw [hid] at hm3
            exact n5 _ (Forest.menuIds_ids _ _ hcur) _ (Forest.menuIds_ids _ _ hm3) rfl
          rw [hno]
          exact ih2 anc p n4 h hp

theorem tree_locate_remove {t : Tree} (hn : t.WF) {id cur : Id} {p : Path} (h : t.locate cur = some p) (hp : ∀ x ∈ p, x.1.id ≠ id) :
    (t.remove id).locate cur = some (rmPath id p) := by
  simp only [Tree.WF, Tree.ids, List.nodup_cons] at hn
  unfold Tree.locate at h ⊢
  split at h
  · rename_i he
    cases h
    exact if_pos he
  · rename_i he
    refine (if_neg he).trans ?_
    exact locate_remove id cur t.kids _ p hn.2 h hp

/-- Everything that is disabled, and the object `id`. -/
def alsoOff (id : Id) (dis : Id → Bool) : Id → Bool := fun i => decide (i = id) || dis i

theorem alsoOff_ne {id i : Id} {dis : Id → Bool} (h : i ≠ id) : alsoOff id dis i = dis i := by simp [alsoOff, h]

theorem candEntries_remove (id : Id) (dis : Id → Bool) (toks : List Str) (sub sub' : MenuInfo → Forest → List Cand)
    (h1 : ∀ m k, m.id = id → sub' m k = [])
    (h2 : ∀ m k, m.id ≠ id → (sub m (k.remove id)).map (·.2) = ((sub' m k).map (·.2)).map (rmTarget id)) (f : Forest) : ∀ i j,
    (candEntries dis toks sub i (f.remove id)).map (·.2) = ((candEntries (alsoOff id dis) toks sub' j f).map (·.2)).map (rmTarget id) := by
  induction f with
  | nil => intro i j; rfl
  | cmd c rest ih =>
    intro i j
    simp only [Forest.remove]
    split
    · rename_i he
      rw [ih i (j + 1)]
      simp only [candEntries]
      cases toks with
      | nil => rfl
      | cons t args => simp [alsoOff, he]
    · rename_i he
      simp only [candEntries, List.map_append, ih (i + 1) (j + 1)]
      congr 1
      cases toks with
      | nil => rfl
      | cons t args =>
        simp only [alsoOff_ne he]
        split <;> rfl
  | menu m k rest _ ih =>
    intro i j
    simp only [Forest.remove]
    split
    · rename_i he
      rw [ih i (j + 1)]
      simp only [candEntries, h1 m k he, List.map_nil, List.nil_append]
    · rename_i he
      simp only [candEntries, List.map_append, ih (i + 1) (j + 1), List.map_map, Function.comp_def]
      congr 1
      have := h2 m k he
      simpa only [List.map_map, Function.comp_def] using this

theorem candHandle_remove (id : Id) (dis : Id → Bool) (toks : List Str) : ∀ (via : Bool) (path : Path), (∀ x ∈ path, x.1.id ≠ id) →
    (candHandle dis toks via (rmPath id path)).map (·.2) = ((candHandle (alsoOff id dis) toks via path).map (·.2)).map (rmTarget id) := by
  induction toks with
  | nil =>
    intro via path _
    cases path with
    | nil => rfl
    | cons x anc => rfl
  | cons t rest ih =>
    intro via path hp
    cases path with
    | nil => rfl
    | cons x anc =>
      obtain ⟨m, k⟩ := x
      have hm : m.id ≠ id := hp (m, k) (by simp)
      have hanc : ∀ x ∈ anc, x.1.id ≠ id := fun x hx => hp x (List.mem_cons_of_mem _ hx)
      simp only [rmPath, List.map_cons, candHandle, alsoOff_ne hm]
      split
      · rfl
      · split
        · split
          · rfl
          · simp only [List.map_append, List.map_map, Function.comp_def]
            congr 1
            · have := candEntries_remove id dis rest (fun m' kids' => candHandle dis rest false ((m', kids') :: (m, k.remove id) :: rmPath id anc))
                (fun m' kids' => candHandle (alsoOff id dis) rest false ((m', kids') :: (m, k) :: anc)) ?_ ?_ k 0 0
              · simpa only [List.map_map, Function.comp_def, rmPath] using this
              · intro m' k' he
                cases rest with
                | nil => rfl
                | cons t' ts => simp [candHandle, alsoOff, he]
              · intro m' k' he
                exact ih false ((m', k') :: (m, k) :: anc) (by
                  intro x hx
                  rcases List.mem_cons.1 hx with hx | hx
                  · subst hx; exact he
                  · exact hp x hx)
            · have := ih true anc hanc
              simpa only [List.map_map, Function.comp_def, rmPath] using this
        · rfl

/-- With an object removed a line designates the same, in the same order, as with the object disabled. -/
theorem cands_remove (id : Id) (dis : Id → Bool) (toks : List Str) (path : Path) (hp : ∀ x ∈ path, x.1.id ≠ id) :
    (cands dis toks (rmPath id path)).map (·.2) = ((cands (alsoOff id dis) toks path).map (·.2)).map (rmTarget id) := by
  cases path with
  | nil => rfl
  | cons x anc =>
    obtain ⟨m, k⟩ := x
    have hm : m.id ≠ id := hp (m, k) (by simp)
    have hanc : ∀ x ∈ anc, x.1.id ≠ id := fun x hx => hp x (List.mem_cons_of_mem _ hx)
    simp only [rmPath, List.map_cons, cands, alsoOff_ne hm]
    split
    · rfl
    · simp only [List.map_append, List.map_map, Function.comp_def]
      congr 1
      · have := candEntries_remove id dis toks (fun m' kids' => candHandle dis toks false ((m', kids') :: (m, k.remove id) :: rmPath id anc))
          (fun m' kids' => candHandle (alsoOff id dis) toks false ((m', kids') :: (m, k) :: anc)) ?_ ?_ k 0 0
        · simpa only [List.map_map, Function.comp_def, rmPath] using this
        · intro m' k' he
          cases toks with
          | nil => rfl
          | cons t' ts => simp [candHandle, alsoOff, he]
        · intro m' k' he
          exact candHandle_remove id dis toks false ((m', k') :: (m, k) :: anc) (by
            intro x hx
            rcases List.mem_cons.1 hx with hx | hx
            · subst hx; exact he
            · exact hp x hx)
      · have := candHandle_remove id dis toks true anc hanc
        simpa only [List.map_map, Function.comp_def, rmPath] using this

end
end Verif

/-! ### Menus that stay -/

namespace Verif
open Spec

theorem Forest.locate_some {f : Forest} {id : Id} {anc : Path} (h : id ∈ f.menuIds) : f.locate id anc ≠ none := by
  induction f generalizing anc with
  | nil => cases h
  | cmd c rest ih => exact ih h
  | menu m k rest ih1 ih2 =>
    simp only [menuIds, List.mem_cons, List.mem_append] at h
    simp only [locate]
    split
    · simp
    · split
      · simp
      · rename_i hne _ hk
        rcases h with h | h | h
        · exact absurd h.symm hne
        · exact absurd hk (ih1 h)
        · exact ih2 h

theorem Tree.locate_some {t : Tree} {id : Id} (h : id ∈ t.menuIds) : t.locate id ≠ none := by
  unfold locate
  simp only [menuIds, List.mem_cons] at h
  split
  · simp
  · rename_i hne
    rcases h with h | h
    · exact absurd h.symm hne
    · exact Forest.locate_some h

theorem Forest.remove_menuIds {f : Forest} {id : Id} (h : id ∉ f.menuIds) : (f.remove id).menuIds = f.menuIds := by
  induction f with
  | nil => rfl
  | cmd c rest ih =>
    simp only [remove]
    split
    · exact ih h
    · exact ih h
  | menu m k rest ih1 ih2 =>
    simp only [menuIds, List.mem_cons, List.mem_append, not_or] at h
    simp only [remove]
    rw [if_neg (fun he => h.1 he.symm)]
    simp only [menuIds, ih1 h.2.1, ih2 h.2.2]

theorem Forest.insertAt_menuIds_old {f : Forest} {mid i : Id} {new : Forest} (h : i ∈ f.menuIds) : i ∈ (insertAt mid new f).menuIds := by
  induction f with
  | nil => cases h
  | cmd c rest ih => exact ih h
  | menu m k rest ih1 ih2 =>
    simp only [insertAt, menuIds, List.mem_cons, List.mem_append] at h ⊢
    rcases h with h | h | h
    · exact .inl h
    · refine .inr (.inl ?_)
      split
      · rw [append_menuIds]; exact List.mem_append_left _ h
      · exact ih1 h
    · exact .inr (.inr (ih2 h))

theorem Forest.insertAt_menuIds_new {f : Forest} {mid i : Id} {new : Forest} (h : i ∈ (insertAt mid new f).menuIds) : i ∈ f.menuIds ∨ i ∈ new.menuIds := by
  induction f with
  | nil => cases h
  | cmd c rest ih => exact ih h
  | menu m k rest ih1 ih2 =>
    simp only [insertAt, menuIds, List.mem_cons, List.mem_append] at h ⊢
    rcases h with h | h | h
    · exact .inl (.inl h)
    · split at h
      · rw [append_menuIds, List.mem_append] at h
        rcases h with h | h
        · exact .inl (.inr (.inl h))
        · exact .inr h
      · rcases ih1 h with h | h
        · exact .inl (.inr (.inl h))
        · exact .inr h
    · rcases ih2 h with h | h
      · exact .inl (.inr (.inr h))
      · exact .inr h

variable {σ τ : Type}

/-- An action that removes no object of the set `K`, and inserts menus of the set only. -/
def KeepsMenus (K : Id → Prop) : Act → Prop
  | .remove id => ¬ K id
  | .insert _ new => ∀ i ∈ new.menuIds, K i
  | _ => True

/-- The current menu exists, and all menus belong to `K`. -/
def Settled (K : Id → Prop) (w : World σ τ) : Prop := w.current ∈ w.tree.menuIds ∧ ∀ i ∈ w.tree.menuIds, K i

theorem settled_act {K : Id → Prop} (w : World σ τ) (a : Act) (ha : KeepsMenus K a) (h : Settled K w) : Settled K (w.act a) := by
  cases a with
  | out s => exact h
  | cout s => exact h
  | color on => exact h
  | enable id => simp only [World.act]; split <;> exact h
  | disable id => simp only [World.act]; split <;> exact h
  | remove id =>
    simp only [World.act]
    split
    · have : (w.tree.remove id).menuIds = w.tree.menuIds := by
        simp only [Tree.remove, Tree.menuIds]
        rw [Forest.remove_menuIds]
        intro hm
        exact ha (h.2 id (by simp [Tree.menuIds, hm]))
      simp only [Settled, this]
      exact h
    · exact h
  | insert mid new =>
    simp only [World.act]
    split
    · simp only [Settled, Tree.insertAt]
      split
      · simp only [Tree.menuIds, Forest.append_menuIds] at h ⊢
        refine ⟨?_, ?_⟩
        · have := h.1
          simp only [Tree.menuIds, List.mem_cons, List.mem_append] at this ⊢
          rcases this with h | h
          · exact .inl h
          · exact .inr (.inl h)
        · intro i hi
          simp only [List.mem_cons, List.mem_append] at hi
          rcases hi with hi | hi | hi
          · exact h.2 i (by simp [Tree.menuIds, hi])
          · exact h.2 i (by simp [Tree.menuIds, hi])
          · exact ha i hi
      · refine ⟨?_, ?_⟩
        · have := h.1
          simp only [Tree.menuIds, List.mem_cons] at this ⊢
          rcases this with h | h
          · exact .inl h
          · exact .inr (Forest.insertAt_menuIds_old h)
        · intro i hi
          simp only [Tree.menuIds, List.mem_cons] at hi
          rcases hi with hi | hi
          · exact h.2 i (by simp [Tree.menuIds, hi])
          · rcases Forest.insertAt_menuIds_new hi with hi | hi
            · exact h.2 i (by simp [Tree.menuIds, hi])
            · exact ha i hi
    · exact h

theorem settled_effect {K : Id → Prop} (w : World σ τ) (e : Effect σ) (he : ∀ a ∈ e.acts, KeepsMenus K a) (h : Settled K w) : Settled K (w.effect e) := by
  have key : ∀ (as : List Act) (u : World σ τ), (∀ a ∈ as, KeepsMenus K a) → Settled K u → Settled K (as.foldl World.act u) := by
    intro as
    induction as with
    | nil => intro u _ h; exact h
    | cons a as ih => intro u ha h; exact ih _ (fun b hb => ha b (by simp [hb])) (settled_act u a (ha a (by simp)) h)
  exact key e.acts { w with app := e.app } he h

theorem closed_settled {A : App σ τ} {K : Id → Prop} (hA : A.Only (KeepsMenus K)) : Closed A (fun w w' => Settled K w → Settled K w') where
  refl := fun w h => h
  trans := fun h1 h2 h => h2 (h1 h)
  handler := fun c vals w h => settled_effect w _ (hA.handler _ _ _) h
  note := fun w e _ h => h
  put := fun w s h => h
  exception := fun f hf w l e h => settled_effect w _ (hA.exception f hf _ _ _) h
  wrong := fun f hf w l h => settled_effect w _ (hA.wrong f hf _ _) h
  exitSession := fun f hf w h => settled_effect w _ (hA.exitSession f hf _) h
  exitGlobal := fun f hf w h => settled_effect w _ (hA.exitGlobal f hf _) h
  enterSession := fun f hf w h => settled_effect w _ (hA.enterSession f hf _) h
  enterGlobal := fun f hf w h => settled_effect w _ (hA.enterGlobal f hf _) h
  enter := fun w i hi h => ⟨hi, h.2⟩
  saved := fun w _ _ h => h
  unsaved := fun w _ h => h

/-- What is preserved by everything a session does is preserved by executions. -/
theorem exec_closed {A : App σ τ} {OK : Act → Prop} {R : World σ τ → World σ τ → Prop} (C : Closed A R) (ha : ∀ w a, OK a → R w (w.act a))
    (hp : ∀ w io, R w { w with io := io })
    (H : ∀ (w : World σ τ) h, R w { w with hist := h }) {Shown : Str → Prop} {w w' : World σ τ} (h : Exec A OK Shown w w') : R w w' := by
  induction h with
  | refl => exact C.refl _
  | feed _ hf ih => exact C.trans ih (closed_feed C H _ _ _ _ _ hf)
  | act a hok _ ih => exact C.trans ih (ha _ a hok)
  | prompt _ hq ih =>
    refine C.trans ih ?_
    unfold Verif.prompt at hq
    split at hq
    · cases hq; exact C.refl _
    · split at hq
      · cases hq; exact hp _ _
      · cases hq
  | up _ _ _ ih => exact C.trans ih (H _ _)
  | down _ _ ih => exact C.trans ih (H _ _)
  | enter _ ih => exact C.trans ih (closed_enter C _)
  | exit _ hx ih => exact C.trans ih (closed_exit C _ _ _ hx)

end Verif
