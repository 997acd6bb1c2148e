import Verif.Props.Menus

set_option linter.unusedSimpArgs false

/-!
# C14: exactly what `Menu::Insert` and `CmdHandler::Remove` do to the menus

The menus are described by what each of them lists, independently of the recursive structure of the model.
-/

namespace Verif.Props
open Spec

variable {σ τ : Type}

/-- What a menu lists: commands and menus. -/
inductive Entry where
  | cmd (c : Cmd)
  | menu (m : MenuInfo)
  deriving DecidableEq, Repr

def Entry.id : Entry → Id
  | .cmd c => c.id
  | .menu m => m.id

/-- The entries of a vector `cmds`, in order. -/
def tops : Forest → List Entry
  | .nil => []
  | .cmd c rest => .cmd c :: tops rest
  | .menu m _ rest => .menu m :: tops rest

/-- All menus in a vector and below, each with its entries. -/
def shelf : Forest → List (MenuInfo × List Entry)
  | .nil => []
  | .cmd _ rest => shelf rest
  | .menu m kids rest => (m, tops kids) :: (shelf kids ++ shelf rest)

/-- All menus of the `Cli`, each with its entries. -/
def shelves (t : Tree) : List (MenuInfo × List Entry) := (t.root, tops t.kids) :: shelf t.kids

theorem tops_append (f g : Forest) : tops (f.append g) = tops f ++ tops g := by
  induction f with
  | nil => rfl
  | cmd c rest ih => simp [Forest.append, tops, ih]
  | menu m kids rest _ ih => simp [Forest.append, tops, ih]

theorem shelf_append (f g : Forest) : shelf (f.append g) = shelf f ++ shelf g := by
  induction f with
  | nil => rfl
  | cmd c rest ih => simp [Forest.append, shelf, ih]
  | menu m kids rest _ ih => simp [Forest.append, shelf, ih]

theorem tops_insertAt (mid : Id) (new f : Forest) : tops (Forest.insertAt mid new f) = tops f := by
  induction f with
  | nil => rfl
  | cmd c rest ih => simp [Forest.insertAt, tops, ih]
  | menu m kids rest _ ih => simp [Forest.insertAt, tops, ih]

theorem shelf_ids {f : Forest} {p : MenuInfo × List Entry} (h : p ∈ shelf f) : p.1.id ∈ f.ids := by
  induction f with
  | nil => cases h
  | cmd c rest ih => simp only [shelf] at h; simp [Forest.ids, ih h]
  | menu m kids rest ih1 ih2 =>
    simp only [shelf, List.mem_cons, List.mem_append] at h
    rcases h with rfl | h | h
    · simp [Forest.ids]
    · simp [Forest.ids, ih1 h]
    · simp [Forest.ids, ih2 h]

/-- The new entries are listed at the end of the menu with this identity. -/
def extended (mid : Id) (new : List Entry) (p : MenuInfo × List Entry) : MenuInfo × List Entry :=
  if p.1.id = mid then (p.1, p.2 ++ new) else p

theorem extended_absent {mid : Id} {new : List Entry} {f : Forest} (h : mid ∉ f.ids) : (shelf f).map (extended mid new) = shelf f := by
  refine (List.map_congr_left ?_).trans (List.map_id (shelf f))
  intro p hp
  unfold extended
  rw [if_neg]; rfl
  intro he
  exact h (he ▸ shelf_ids hp)

theorem insertAt_absent {mid : Id} {new f : Forest} (h : mid ∉ f.ids) : Forest.insertAt mid new f = f := by
  induction f with
  | nil => rfl
  | cmd c rest ih =>
    simp only [Forest.ids, List.mem_cons, not_or] at h
    simp [Forest.insertAt, ih h.2]
  | menu m kids rest ih1 ih2 =>
    simp only [Forest.ids, List.mem_cons, List.mem_append, not_or] at h
    simp only [Forest.insertAt, ih1 h.2.1, ih2 h.2.2, if_neg (fun e : m.id = mid => h.1 e.symm)]

theorem menuIds_ids {f : Forest} {i : Id} (h : i ∈ f.menuIds) : i ∈ f.ids := by
  induction f with
  | nil => cases h
  | cmd c rest ih => simp only [Forest.menuIds] at h; simp [Forest.ids, ih h]
  | menu m kids rest ih1 ih2 =>
    simp only [Forest.menuIds, Forest.ids, List.mem_cons, List.mem_append] at h ⊢
    rcases h with h | h | h
    · exact .inl h
    · exact .inr (.inl (ih1 h))
    · exact .inr (.inr (ih2 h))

theorem shelf_insertAt (mid : Id) (new f : Forest) (hn : f.ids.Nodup) (hm : mid ∈ f.menuIds) :
    (shelf (Forest.insertAt mid new f)).Perm ((shelf f).map (extended mid (tops new)) ++ shelf new) := by
  induction f with
  | nil => cases hm
  | cmd c rest ih =>
    simp only [Forest.ids, List.nodup_cons] at hn
    exact ih hn.2 hm
  | menu m kids rest ih1 ih2 =>
    simp only [Forest.ids, List.nodup_cons, List.nodup_append, List.mem_append, not_or] at hn
    obtain ⟨⟨n1, n2⟩, n3, n4, n5⟩ := hn
    simp only [Forest.menuIds, List.mem_cons, List.mem_append] at hm
    simp only [Forest.insertAt, shelf]
    by_cases he : m.id = mid
    · subst he
      rw [if_pos rfl, tops_append, shelf_append, insertAt_absent n2]
      simp only [List.map_cons, List.map_append, extended_absent n1, extended_absent n2]
      rw [show extended m.id (tops new) (m, tops kids) = (m, tops kids ++ tops new) by simp [extended]]
      simp only [List.cons_append]
      refine List.Perm.cons _ ?_
      rw [List.append_assoc, List.append_assoc]
      exact (List.perm_append_comm).append_left _
    · rw [if_neg he, tops_insertAt]
      simp only [List.map_cons, List.map_append, List.cons_append]
      rw [show extended mid (tops new) (m, tops kids) = (m, tops kids) by simp [extended, he]]
      refine List.Perm.cons _ ?_
      rcases hm with h | h | h
      · exact absurd h.symm he
      · have habs : mid ∉ rest.ids := fun hr => n5 _ (menuIds_ids h) _ hr rfl
        rw [insertAt_absent habs, extended_absent habs, List.append_assoc]
        refine ((ih1 n3 h).append_right _).trans ?_
        rw [List.append_assoc]
        exact (List.perm_append_comm).append_left _
      · have habs : mid ∉ kids.ids := fun hr => n5 _ hr _ (menuIds_ids h) rfl
        rw [insertAt_absent habs, extended_absent habs, List.append_assoc]
        exact (ih2 n4 h).append_left _

/-- **C14** `Menu::Insert` adds what is inserted at the end of that menu, with everything in it, and changes no other menu, no flag and no command. -/
theorem C14_insert_exact (w : World σ τ) (hw : TreeWF w.tree w.used) (mid : Id) (new : Forest) (hm : mid ∈ w.tree.menuIds) (hn : new.ids.Nodup) (hu : ∀ i ∈ new.ids, i ∉ w.used) :
    (shelves (w.act (.insert mid new)).tree).Perm ((shelves w.tree).map (extended mid (tops new)) ++ shelf new) ∧ (w.act (.insert mid new)).tree.root = w.tree.root ∧
    (w.act (.insert mid new)).dis = w.dis := by
  have hd := hw.nodup
  simp only [Tree.WF, Tree.ids, List.nodup_cons] at hd
  simp only [World.act, if_pos (And.intro hm (And.intro hn hu)), and_true]
  unfold Tree.insertAt shelves
  by_cases he : w.tree.root.id = mid
  · subst he
    rw [if_pos rfl]
    refine ⟨?_, rfl⟩
    simp only [List.map_cons, extended_absent hd.1, tops_append, shelf_append]
    rw [show extended w.tree.root.id (tops new) (w.tree.root, tops w.tree.kids) = (w.tree.root, tops w.tree.kids ++ tops new) by simp [extended]]
    exact List.Perm.refl _
  · rw [if_neg he]
    refine ⟨?_, rfl⟩
    simp only [Tree.menuIds, List.mem_cons] at hm
    simp only [List.map_cons, tops_insertAt, List.cons_append]
    rw [show extended mid (tops new) (w.tree.root, tops w.tree.kids) = (w.tree.root, tops w.tree.kids) by simp [extended, he]]
    exact List.Perm.cons _ (shelf_insertAt mid new _ hd.2 (hm.resolve_left (fun h => he h.symm)))

example : (shelves (Sample.world.act (.insert 3 (.cmd ⟨40, bs!"new", .variadic [], 5, [], []⟩ .nil))).tree).map (fun p => p.2.map Entry.id) =
    [[1, 2, 3, 5, 6, 7, 8, 9, 11], [4, 10, 12, 40], [13]] := by decide

/-- The entry with this identity is not listed. -/
def dropped (id : Id) (p : MenuInfo × List Entry) : MenuInfo × List Entry := (p.1, p.2.filter (fun e => e.id != id))

theorem tops_ids {f : Forest} {e : Entry} (h : e ∈ tops f) : e.id ∈ f.ids := by
  induction f with
  | nil => cases h
  | cmd c rest ih =>
    simp only [tops, List.mem_cons] at h
    rcases h with rfl | h
    · simp [Forest.ids, Entry.id]
    · simp [Forest.ids, ih h]
  | menu m kids rest _ ih =>
    simp only [tops, List.mem_cons] at h
    rcases h with rfl | h
    · simp [Forest.ids, Entry.id]
    · simp [Forest.ids, ih h]

theorem tops_remove (id : Id) (f : Forest) : tops (f.remove id) = (tops f).filter (fun e => e.id != id) := by
  induction f with
  | nil => rfl
  | cmd c rest ih =>
    by_cases h : c.id = id
    · simp [Forest.remove, tops, h, ih, Entry.id]
    · simp [Forest.remove, tops, h, ih, Entry.id]
  | menu m kids rest _ ih =>
    by_cases h : m.id = id
    · simp [Forest.remove, tops, h, ih, Entry.id]
    · simp [Forest.remove, tops, h, ih, Entry.id]

theorem shelf_remove (id : Id) (f : Forest) (hn : f.ids.Nodup) :
    shelf (f.remove id) = ((shelf f).filter (fun p => !(f.under id).contains p.1.id)).map (dropped id) := by
  have cong : ∀ (l : List (MenuInfo × List Entry)) (S T : List Id), (∀ p ∈ l, p.1.id ∈ S ↔ p.1.id ∈ T) →
      l.filter (fun p => !S.contains p.1.id) = l.filter (fun p => !T.contains p.1.id) := by
    intro l S T h
    refine List.filter_congr ?_
    intro p hp
    rw [Bool.eq_iff_iff]; simp [h p hp]
  induction f with
  | nil => rfl
  | cmd c rest ih =>
    simp only [Forest.ids, List.nodup_cons] at hn
    have hr := cong (shelf rest) ((if c.id = id then [c.id] else []) ++ rest.under id) (rest.under id) (by
      intro p hp
      simp only [List.mem_append]
      refine ⟨fun h => h.resolve_left (fun h => ?_), .inr⟩
      split at h
      · rw [List.mem_singleton] at h; exact hn.1 (h ▸ shelf_ids hp)
      · cases h)
    simp only [shelf, Forest.under, hr]
    rw [← ih hn.2]
    by_cases h : c.id = id <;> simp [Forest.remove, h, shelf]
  | menu m kids rest ih1 ih2 =>
    simp only [Forest.ids, List.nodup_cons, List.nodup_append, List.mem_append, not_or] at hn
    obtain ⟨⟨n1, n2⟩, n3, n4, n5⟩ := hn
    by_cases h : m.id = id
    · have hk : (shelf kids).filter (fun p => !((m.id :: kids.ids) ++ rest.under id).contains p.1.id) = [] := by
        rw [List.filter_eq_nil_iff]
        intro p hp
        simp [shelf_ids hp]
      have hr := cong (shelf rest) ((m.id :: kids.ids) ++ rest.under id) (rest.under id) (by
        intro p hp
        simp only [List.mem_append, List.mem_cons]
        refine ⟨fun h => h.resolve_left (fun h => ?_), .inr⟩
        rcases h with h | h
        · exact n2 (h ▸ shelf_ids hp)
        · exact n5 _ h _ (shelf_ids hp) rfl)
      simp only [Forest.remove, if_pos h, Forest.under, shelf, List.filter_cons, List.filter_append, hk, hr]
      rw [ih2 n4]
      simp
    · have hk := cong (shelf kids) (kids.under id ++ rest.under id) (kids.under id) (by
        intro p hp
        simp only [List.mem_append]
        exact ⟨fun h => h.resolve_right (fun h => n5 _ (shelf_ids hp) _ (Forest.under_ids h) rfl), .inl⟩)
      have hr := cong (shelf rest) (kids.under id ++ rest.under id) (rest.under id) (by
        intro p hp
        simp only [List.mem_append]
        exact ⟨fun h => h.resolve_left (fun h => n5 _ (Forest.under_ids h) _ (shelf_ids hp) rfl), .inr⟩)
      have hm : m.id ∉ kids.under id ++ rest.under id := by
        simp only [List.mem_append, not_or]
        exact ⟨fun h => n1 (Forest.under_ids h), fun h => n2 (Forest.under_ids h)⟩
      simp only [Forest.remove, if_neg h, Forest.under, shelf, List.filter_cons, List.filter_append, hk, hr]
      rw [if_pos (by simpa using hm), ih1 n3, ih2 n4, tops_remove]
      simp [dropped]

/-- **C14** `CmdHandler::Remove` takes the entry out of the menu that lists it, and the menus in it disappear; all other menus, and the order of their entries, stay as they are. -/
theorem C14_remove_listing (w : World σ τ) (hw : TreeWF w.tree w.used) (id : Id) (hid : id ∈ w.tree.kids.ids) :
    shelves (w.act (.remove id)).tree = ((shelves w.tree).filter (fun p => !(w.tree.kids.under id).contains p.1.id)).map (dropped id) ∧ (w.act (.remove id)).tree.root = w.tree.root := by
  have hd := hw.nodup
  simp only [Tree.WF, Tree.ids, List.nodup_cons] at hd
  simp only [World.act, if_pos hid, Tree.remove, and_true]
  unfold shelves
  rw [List.filter_cons, if_pos (by simpa using fun h => hd.1 (Forest.under_ids h)), List.map_cons, shelf_remove id _ hd.2, tops_remove]
  rfl

example : (shelves (Sample.world.act (.remove 12)).tree).map (fun p => p.2.map Entry.id) = [[1, 2, 3, 5, 6, 7, 8, 9, 11], [4, 10]] := by decide
example : (shelves Sample.world.tree).map (fun p => p.2.map Entry.id) = [[1, 2, 3, 5, 6, 7, 8, 9, 11], [4, 10, 12], [13]] := by decide

end Verif.Props
