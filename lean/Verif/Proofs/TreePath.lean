import Verif.Proofs.Tree
set_option linter.unusedSimpArgs false
/-!
# Which actions destroy the current menu
-/

namespace Verif
open Spec

/-- The menus of a path, without their contents. -/
def names (p : Path) : List MenuInfo := p.map (·.1)

theorem Forest.locate_anc {f : Forest} {cur : Id} : ∀ {anc anc' p : Path}, f.locate cur anc = some p → names anc = names anc' → ∃ p', f.locate cur anc' = some p' ∧ names p = names p' := by
  induction f with
  | nil => intro _ _ _ h; cases h
  | cmd c rest ih => intro anc anc' p h ha; exact ih h ha
  | menu m k rest ih1 ih2 =>
    intro anc anc' p h ha
    simp only [locate] at h ⊢
    split at h
    · rename_i he
      cases h
      exact ⟨_, if_pos he, by simp only [names, List.map_cons] at ha ⊢; rw [ha]⟩
    · rename_i he
      rw [if_neg he]
      split at h
      · rename_i p' hp'
        cases h
        obtain ⟨q, h1, h2⟩ := ih1 hp' (anc' := (m, k) :: anc') (by simp only [names, List.map_cons] at ha ⊢; rw [ha])
        exact ⟨q, by rw [h1], h2⟩
      · rename_i hk
        have : k.locate cur ((m, k) :: anc') = none := locate_none (fun hm => locate_some hm hk)
        rw [this]
        exact ih2 h ha

theorem Forest.locate_append {f new : Forest} {cur : Id} : ∀ {anc p : Path}, f.locate cur anc = some p → (f.append new).locate cur anc = some p := by
  induction f with
  | nil => intro _ _ h; cases h
  | cmd c rest ih => intro anc p h; exact ih h
  | menu m k rest ih1 ih2 =>
    intro anc p h
    simp only [locate, append] at h ⊢
    split at h
    · rename_i he; rw [if_pos he]; exact h
    · rename_i he
      rw [if_neg he]
      split at h
      · rename_i p' hp'; cases h; rfl
      · rename_i hk; exact ih2 h

theorem Forest.locate_insert {f new : Forest} {mid cur : Id} (hcur : cur ∉ new.menuIds) : ∀ {anc anc' p : Path}, f.locate cur anc = some p → names anc = names anc' →
    ∃ p', (insertAt mid new f).locate cur anc' = some p' ∧ names p = names p' := by
  induction f with
  | nil => intro _ _ _ h; cases h
  | cmd c rest ih => intro anc anc' p h ha; exact ih h ha
  | menu m k rest ih1 ih2 =>
    intro anc anc' p h ha
    simp only [locate, insertAt] at h ⊢
    have key : ∀ k', names ((m, k) :: anc) = names ((m, k') :: anc') := by intro k'; simp only [names, List.map_cons] at ha ⊢; rw [ha]
    split at h
    · rename_i he
      cases h
      exact ⟨_, if_pos he, key _⟩
    · rename_i he
      rw [if_neg he]
      split at h
      · rename_i p' hp'
        cases h
        by_cases hmid : m.id = mid
        · obtain ⟨q, h1, h2⟩ := locate_anc hp' (key (k.append new))
          exact ⟨q, by rw [if_pos hmid, locate_append h1], h2⟩
        · obtain ⟨q, h1, h2⟩ := ih1 hp' (key (insertAt mid new k))
          exact ⟨q, by rw [if_neg hmid, h1], h2⟩
      · rename_i hk
        have hno : cur ∉ k.menuIds := fun hm => locate_some hm hk
        have : ∀ a, (if m.id = mid then k.append new else insertAt mid new k).locate cur a = none := by
          intro a
          apply locate_none
          split
          · rw [append_menuIds, List.mem_append]
            rintro (h | h)
            · exact hno h
            · exact hcur h
          · intro h
            rcases insertAt_menuIds_new h with h | h
            · exact hno h
            · exact hcur h
        rw [this]
        exact ih2 h ha

theorem tree_locate_insert {t : Tree} {new : Forest} {mid cur : Id} {p : Path} (hcur : cur ∉ new.menuIds) (h : t.locate cur = some p) :
    ∃ p', (t.insertAt mid new).locate cur = some p' ∧ names p = names p' := by
  unfold Tree.locate at h
  unfold Tree.insertAt
  split at h
  · rename_i he
    cases h
    split <;> exact ⟨_, if_pos he, rfl⟩
  · rename_i he
    split
    · obtain ⟨q, h1, h2⟩ := Forest.locate_anc h (anc' := [(t.root, t.kids.append new)]) rfl
      exact ⟨q, by unfold Tree.locate; rw [if_neg (by exact he)]; exact Forest.locate_append h1, h2⟩
    · obtain ⟨q, h1, h2⟩ := Forest.locate_insert (mid := mid) (new := new) hcur h (anc' := [(t.root, Forest.insertAt mid new t.kids)]) rfl
      exact ⟨q, by unfold Tree.locate; rw [if_neg (by exact he)]; exact h1, h2⟩

/-- A menu below a removed one does not remain. -/
theorem Forest.locate_under {f : Forest} {cur : Id} : ∀ {anc p : Path}, f.locate cur anc = some p → ∀ x ∈ p, x ∈ anc ∨ cur ∈ under x.1.id f := by
  induction f with
  | nil => intro _ _ h; cases h
  | cmd c rest ih =>
    intro anc p h x hx
    rcases ih h x hx with h | h
    · exact .inl h
    · exact .inr (by simp only [under, List.mem_append]; exact .inr h)
  | menu m k rest ih1 ih2 =>
    intro anc p h x hx
    simp only [locate] at h
    split at h
    · rename_i he
      cases h
      rcases List.mem_cons.1 hx with rfl | hx
      · exact .inr (by simp [under, he])
      · exact .inl hx
    · split at h
      · rename_i p' hp'
        cases h
        have hmem : cur ∈ k.ids := by
          obtain ⟨hs, m2, k2, q2, rfl, hid⟩ := locate_sub hp'
          obtain ⟨m3, k3, q3, he3, hm3⟩ := sub_head hs
          cases he3
          rw [hid] at hm3
          exact menuIds_ids _ _ hm3
        rcases ih1 hp' x hx with h | h
        · rcases List.mem_cons.1 h with rfl | h
          · exact .inr (by simp [under, hmem])
          · exact .inl h
        · refine .inr ?_
          simp only [under, List.mem_append]
          refine .inl ?_
          split
          · exact List.mem_cons_of_mem _ hmem
          · exact h
      · rcases ih2 h x hx with h | h
        · exact .inl h
        · exact .inr (by simp only [under, List.mem_append]; exact .inr h)

theorem locate_gone {t : Tree} (hn : t.WF) {id cur : Id} {p : Path} (h : t.locate cur = some p) (hp : id ∈ (names p).map (·.id)) (hr : id ≠ t.root.id) : cur ∉ (t.remove id).ids := by
  simp only [Tree.WF, Tree.ids, List.nodup_cons] at hn
  obtain ⟨m, hm, rfl⟩ := List.mem_map.1 hp
  obtain ⟨x, hx, rfl⟩ := List.mem_map.1 hm
  unfold Tree.locate at h
  split at h
  · cases h
    cases List.mem_singleton.1 hx
    exact absurd rfl hr
  · rename_i he
    rcases Forest.locate_under h x hx with h1 | h1
    · cases List.mem_singleton.1 h1
      exact absurd rfl hr
    · simp only [Tree.ids, Tree.remove, List.mem_cons, not_or]
      exact ⟨fun e => he e.symm, fun hm => ((Forest.mem_remove hn.2 cur).1 hm).2 h1⟩

variable {σ τ : Type}

theorem act_current (w : World σ τ) (a : Act) : (w.act a).current = w.current ∧ (w.act a).exit = w.exit := by
  cases a <;> simp only [World.act] <;> (try split) <;> first | exact ⟨rfl, rfl⟩ | simp

/-- One action: it destroys the current menu exactly if it removes it, or one that contains it. -/
theorem act_path {w : World σ τ} (hw : TreeWF w.tree w.used) {p : Path} (hp : w.tree.locate w.current = some p) (a : Act) :
    ((∀ id, a = .remove id → id ≠ w.tree.root.id → id ∉ (names p).map (·.id)) → ∃ p', (w.act a).tree.locate (w.act a).current = some p' ∧ names p' = names p) ∧
    ((∃ id, a = .remove id ∧ id ≠ w.tree.root.id ∧ id ∈ (names p).map (·.id)) → Gone w.current (w.act a).tree (w.act a).used) := by
  have hsame : ∀ w' : World σ τ, w'.tree = w.tree → w'.current = w.current → ∃ p', w'.tree.locate w'.current = some p' ∧ names p' = names p := by
    intro w' h1 h2; exact ⟨p, by rw [h1, h2]; exact hp, rfl⟩
  have hcid : w.current ∈ w.tree.menuIds := by
    rcases Classical.em (w.current ∈ w.tree.menuIds) with h | h
    · exact h
    · exfalso
      simp only [Tree.menuIds, List.mem_cons, not_or] at h
      unfold Tree.locate at hp
      rw [if_neg (fun e => h.1 e.symm), Forest.locate_none h.2] at hp
      cases hp
  have hcu : w.current ∈ w.tree.ids := by
    simp only [Tree.menuIds, Tree.ids, List.mem_cons] at hcid ⊢
    exact hcid.imp id (Forest.menuIds_ids _ _)
  refine ⟨fun h => ?_, ?_⟩
  · cases a with
    | out s => exact hsame _ rfl rfl
    | cout s => exact hsame _ rfl rfl
    | color on => exact hsame _ rfl rfl
    | enable id => simp only [World.act]; split <;> exact hsame _ rfl rfl
    | disable id => simp only [World.act]; split <;> exact hsame _ rfl rfl
    | remove id =>
      simp only [World.act]
      split
      · rename_i hid
        have hne : id ≠ w.tree.root.id := by
          have := hw.nodup
          simp only [Tree.WF, Tree.ids, List.nodup_cons] at this
          rintro rfl; exact this.1 hid
        have hn := h id rfl hne
        refine ⟨_, tree_locate_remove hw.nodup hp (fun x hx he => hn (List.mem_map.2 ⟨x.1, List.mem_map.2 ⟨x, hx, rfl⟩, he⟩)), ?_⟩
        simp [names, rmPath]
      · exact hsame _ rfl rfl
    | insert mid new =>
      simp only [World.act]
      split
      · rename_i hi
        obtain ⟨q, h1, h2⟩ := tree_locate_insert (mid := mid) (new := new) (fun hm => hi.2.2 _ (Forest.menuIds_ids _ _ hm) (hw.used _ hcu)) hp
        exact ⟨q, h1, h2.symm⟩
      · exact hsame _ rfl rfl
  · rintro ⟨id, rfl, hne, hin⟩
    have hin' : id ∈ w.tree.kids.ids := by
      obtain ⟨m, hm, rfl⟩ := List.mem_map.1 hin
      obtain ⟨x, hx, rfl⟩ := List.mem_map.1 hm
      unfold Tree.locate at hp
      split at hp
      · cases hp; cases List.mem_singleton.1 hx; exact absurd rfl hne
      · rcases Forest.locate_under hp x hx with h1 | h1
        · cases List.mem_singleton.1 h1; exact absurd rfl hne
        · have hs := (Forest.locate_sub hp).1
          have : ∀ (anc : Path) (g : Forest) (p : Path), Forest.Sub anc g p → ∀ x ∈ p, x ∈ anc ∨ x.1.id ∈ g.ids := by
            intro anc g p hs
            induction hs with
            | here h =>
              intro x hx
              rcases List.mem_cons.1 hx with rfl | hx
              · exact .inr (Forest.entry_ids h).1
              · exact .inl hx
            | deep h _ ih =>
              intro x hx
              rcases ih x hx with h1 | h1
              · rcases List.mem_cons.1 h1 with rfl | h1
                · exact .inr (Forest.entry_ids h).1
                · exact .inl h1
              · exact .inr ((Forest.entry_ids h).2 _ h1)
          rcases this _ _ _ hs x hx with h2 | h2
          · cases List.mem_singleton.1 h2; exact absurd rfl hne
          · exact h2
    simp only [World.act, if_pos hin']
    exact ⟨hw.used _ hcu, locate_gone hw.nodup hp hin hne⟩

theorem act_root (w : World σ τ) (a : Act) : (w.act a).tree.root = w.tree.root := by
  cases a <;> simp only [World.act] <;> (try split) <;> (try rfl)
  simp only [Tree.insertAt]; split <;> rfl

/-- Any number of actions. -/
theorem acts_path (as : List Act) : ∀ {w : World σ τ}, TreeWF w.tree w.used → ∀ {p : Path}, w.tree.locate w.current = some p →
    ((as.foldl World.act w).tree.locate (as.foldl World.act w).current ≠ none ↔ ∀ id, .remove id ∈ as → id ≠ w.tree.root.id → id ∉ (names p).map (·.id)) := by
  induction as with
  | nil => intro w _ p hp; simp [hp]
  | cons a as ih =>
    intro w hw p hp
    have hw' : TreeWF (w.act a).tree (w.act a).used := stable_act stable_wf w a trivial hw
    obtain ⟨h1, h2⟩ := act_path hw hp a
    by_cases hbad : ∃ id, a = .remove id ∧ id ≠ w.tree.root.id ∧ id ∈ (names p).map (·.id)
    · have hg := stable_acts (stable_gone w.current) as (w.act a) (fun _ _ => trivial) (h2 hbad)
      constructor
      · intro hne
        exfalso
        apply hne
        have hc : (List.foldl World.act (w.act a) as).current = w.current := by
          have : ∀ (as : List Act) (w : World σ τ), (as.foldl World.act w).current = w.current := by
            intro as; induction as with
            | nil => intro w; rfl
            | cons a as ih => intro w; exact (ih _).trans (act_current w a).1
          rw [this, (act_current w a).1]
        rw [List.foldl_cons, hc]
        have hg2 := hg.2
        simp only [Tree.ids, List.mem_cons, not_or] at hg2
        unfold Tree.locate
        rw [if_neg (fun e => hg2.1 e.symm)]
        exact Forest.locate_none (fun hm => hg2.2 (Forest.menuIds_ids _ _ hm))
      · intro hall
        obtain ⟨id, rfl, hne, hin⟩ := hbad
        exact absurd hin (hall id (by simp) hne)
    · obtain ⟨p', hp', hn'⟩ := h1 (fun id he hne hin => hbad ⟨id, he, hne, hin⟩)
      rw [List.foldl_cons, ih hw' hp', act_root, hn']
      constructor
      · intro h id hm hne hin
        rcases List.mem_cons.1 hm with rfl | hm
        · exact hbad ⟨id, rfl, hne, hin⟩
        · exact h id hm hne hin
      · intro h id hm hne; exact h id (List.mem_cons_of_mem _ hm) hne
end Verif
