import Verif.Props.Completion

set_option linter.unusedSimpArgs false

/-!
# C37: menus without names
-/

namespace Verif.Props
open Spec Completion

variable {σ τ : Type}

theorem complEntries_stuck {dis : Id → Bool} {line : Str} {sub : MenuInfo → Forest → Except Fault (List Str)} {m : MenuInfo} {k : Forest} (hs : ∀ l, sub m k ≠ .ok l) :
    ∀ {f : Forest}, Entry.menu m k ∈ entries f → ∀ l, complEntries dis line sub f ≠ .ok l
  | .nil, h, l => by simp [entries] at h
  | .cmd c rest, h, l => by
    simp only [entries, List.mem_cons, reduceCtorEq, false_or] at h
    intro hl
    cases hr : complEntries dis line sub rest with
    | error f => simp [complEntries, hr, bind, Except.bind] at hl
    | ok r => exact complEntries_stuck hs h r hr
  | .menu m' k' rest, h, l => by
    simp only [entries, List.mem_cons, Entry.menu.injEq] at h
    intro hl
    cases ha : sub m' k' with
    | error f => simp [complEntries, ha, bind, Except.bind] at hl
    | ok a =>
      rcases h with ⟨rfl, rfl⟩ | h
      · exact hs a ha
      · cases hr : complEntries dis line sub rest with
        | error f => simp [complEntries, ha, hr, bind, Except.bind] at hl
        | ok r => exact complEntries_stuck hs h r hr

theorem nameless_stuck (p : Platform) (dis : Id → Bool) {m m' : MenuInfo} {kids k : Forest} {anc : Path} (h1 : m.name = []) (h2 : m'.name = []) (hm : Entry.menu m' k ∈ entries kids) :
    ∀ fuel via line l, complMenu p dis fuel via ((m', k) :: (m, kids) :: anc) line ≠ .ok l ∧ complMenu p dis fuel via ((m, kids) :: anc) line ≠ .ok l := by
  intro fuel
  induction fuel with
  | zero => intro via line l; exact ⟨by simp [complMenu], by simp [complMenu]⟩
  | succ fuel ih =>
    intro via line l
    constructor
    · intro h
      simp only [complMenu, h2, List.isPrefixOf_nil_left, if_true, bind, Except.bind, List.length_nil, List.drop_zero] at h
      cases ht : trimLeft p line with
      | error f => rw [ht] at h; simp at h
      | ok rest =>
        rw [ht] at h
        simp only at h
        split at h
        · cases h
        · split at h
          · cases h
          · rename_i b hb
            exact (ih true rest b).2 hb
    · intro h
      simp only [complMenu, h1, List.isPrefixOf_nil_left, if_true, bind, Except.bind, List.length_nil, List.drop_zero] at h
      cases ht : trimLeft p line with
      | error f => rw [ht] at h; simp at h
      | ok rest =>
        rw [ht] at h
        simp only at h
        split at h
        · cases h
        · rename_i a ha
          exact complEntries_stuck (fun l => (ih false rest l).1) hm a ha

/-- **C37 is false of the code** for every menu without a name that contains another one without a name: in both, no line whatsoever has completions; the recursion ends for no depth of the stack. -/
theorem C37_nested_refuted (p : Platform) (w : World σ τ) (m m' : MenuInfo) (kids k : Forest) (anc : Path) (h1 : m.name = []) (h2 : m'.name = []) (hm : Entry.menu m' k ∈ entries kids)
    (hc : w.tree.locate w.current = some ((m, kids) :: anc) ∨ w.tree.locate w.current = some ((m', k) :: (m, kids) :: anc)) (fuel : Nat) (line : Str) (l : List Str) :
    completions p fuel w line ≠ .ok l := by
  intro h
  have hs := nameless_stuck p w.dis (kids := kids) (k := k) (anc := anc) h1 h2 hm fuel
  simp only [completions, bind, Except.bind] at h
  cases ht : trimLeft p line with
  | error f => rw [ht] at h; simp at h
  | ok typed =>
    rw [ht] at h
    simp only at h
    rcases hc with hc | hc <;> rw [hc] at h <;> simp only at h
    · cases hk : complCurrent p w.dis fuel typed ((m, kids) :: anc) with
      | error f => rw [hk] at h; simp at h
      | ok c =>
        simp only [complCurrent, bind, Except.bind] at hk
        split at hk
        · cases hk
        · rename_i a ha
          exact complEntries_stuck (fun l => (hs false typed l).1) hm a ha
    · cases hk : complCurrent p w.dis fuel typed ((m', k) :: (m, kids) :: anc) with
      | error f => rw [hk] at h; simp at h
      | ok c =>
        simp only [complCurrent, bind, Except.bind] at hk
        split at hk
        · cases hk
        · split at hk
          · cases hk
          · rename_i b hb
            exact (hs true typed b).2 hb

/-- The hypotheses are satisfiable. -/
example : nameless.tree.locate nameless.current = some [(Sample.info 0 [], nameless.tree.kids)] ∧ Entry.menu (Sample.info 1 []) .nil ∈ entries nameless.tree.kids := ⟨rfl, by simp [nameless, entries]⟩

end Verif.Props
