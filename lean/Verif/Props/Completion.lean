import Verif.Proofs.Completion
import Verif.Props.Sample

set_option linter.unusedSimpArgs false

/-!
# Properties C34, C35, C36, C37, C63: completion
-/

namespace Verif.Props
open Spec Completion

variable {σ τ : Type}

/-- The names of the global commands. -/
def globalNames : List Str := [bs!"help", bs!"exit", bs!"history", bs!"!"]

theorem completions_spec {p : Platform} {fuel : Nat} {w : World σ τ} {line : Str} {l : List Str} (h : completions p fuel w line = .ok l) :
    ∃ gap typed path, line = gap ++ typed ∧ Gap gap typed ∧ w.tree.locate w.current = some path ∧ l.Pairwise StrBefore ∧
      ∀ c, c ∈ l ↔ (c ∈ globalNames ∧ typed <+: c) ∨ Offered w.dis path typed c := by
  simp only [completions, bind, Except.bind] at h
  split at h
  · cases h
  · rename_i typed ht
    obtain ⟨gap, hgap, hg⟩ := trim_spec ht
    split at h
    · cases h
    · rename_i path hp
      split at h
      · cases h
      · rename_i v3 h3
        cases h
        refine ⟨gap, typed, path, hgap, hg, hp, strict_unique (sorted_sort _), ?_⟩
        intro c
        rw [mem_unique, mem_sort, List.mem_append, current_iff p w.dis fuel path typed v3 h3 c]
        simp only [globalCmds, List.flatMap_cons, List.flatMap_nil, List.mem_append, mem_complName, globalNames, List.mem_cons, List.not_mem_nil, or_false, true_and]
        constructor
        · rintro ((⟨h, rfl⟩ | ⟨h, rfl⟩ | ⟨h, rfl⟩ | ⟨h, rfl⟩) | h)
          · exact .inl ⟨.inl rfl, h⟩
          · exact .inl ⟨.inr (.inl rfl), h⟩
          · exact .inl ⟨.inr (.inr (.inl rfl)), h⟩
          · exact .inl ⟨.inr (.inr (.inr rfl)), h⟩
          · exact .inr h
        · rintro (⟨rfl | rfl | rfl | rfl, h⟩ | h)
          · exact .inl (.inl ⟨h, rfl⟩)
          · exact .inl (.inr (.inl ⟨h, rfl⟩))
          · exact .inl (.inr (.inr (.inl ⟨h, rfl⟩)))
          · exact .inl (.inr (.inr (.inr ⟨h, rfl⟩)))
          · exact .inr h

/-- **C34** The completions of any line, in any menu tree, are in strictly increasing order, so they are distinct. -/
theorem C34_sorted (p : Platform) (fuel : Nat) (w : World σ τ) (line : Str) (l : List Str) (h : completions p fuel w line = .ok l) :
    l.Pairwise StrBefore ∧ l.Nodup := by
  obtain ⟨_, _, _, _, _, _, hs, _⟩ := completions_spec h
  exact ⟨hs, hs.imp (fun {a b} hb he => by subst he; exact before_irrefl a hb)⟩

/-- **C34** Each completion extends what was typed, white space apart. -/
theorem C34_extends (p : Platform) (fuel : Nat) (w : World σ τ) (line : Str) (l : List Str) (h : completions p fuel w line = .ok l) (c : Str) (hc : c ∈ l) :
    strip line <+: strip c := by
  obtain ⟨gap, typed, path, rfl, hg, _, _, hm⟩ := completions_spec h
  rw [strip_append, strip_gap hg, List.nil_append]
  rcases (hm c).1 hc with ⟨_, h⟩ | ⟨ws, q, r, e, h1, h2, rfl⟩
  · exact strip_prefix h
  · exact typing_strip h1 e (begins_prefix h2)

theorem typing_walk {path : Path} {line : Str} {ws : List Str} {q : Path} {r : Str} (h : Typing path line ws q r) : ∃ ms, WalkVia path ws ms q := by
  induction h with
  | here => exact ⟨[], .stay _⟩
  | down hm _ _ ih => obtain ⟨ms, h⟩ := ih; exact ⟨_, .down hm h⟩
  | up _ _ ih => obtain ⟨ms, h⟩ := ih; exact ⟨_, .up (.inl rfl) h⟩
  | dots _ _ _ ih => obtain ⟨ms, h⟩ := ih; exact ⟨_, .up (.inr rfl) h⟩

/-- `e` is the name of an entry of the menu, or of its parent, that is enabled. -/
def NameIn (dis : Id → Bool) : Path → Str → Prop
  | [], _ => False
  | (_, kids) :: anc, e =>
    (∃ c, .cmd c ∈ entries kids ∧ dis c.id = false ∧ c.name = e) ∨ (∃ m k, .menu m k ∈ entries kids ∧ dis m.id = false ∧ m.name = e) ∨
    ∃ p ∈ anc.head?, dis p.1.id = false ∧ p.1.name = e

theorem begins_name {dis : Id → Bool} {q : Path} {r e : Str} (h : Begins dis q r e) : NameIn dis q e := by
  cases h with
  | cmd h1 h2 h3 => exact .inl ⟨_, h1, h2, rfl⟩
  | menu h1 h2 h3 => exact .inr (.inl ⟨_, _, h1, h2, rfl⟩)
  | parent h1 h2 => exact .inr (.inr ⟨_, rfl, h1, rfl⟩)

/-- **C35** Each completion is the name of a global command, or spells a walk from the current menu followed by the name of an entry (or of the parent) of the menu reached. -/
theorem C35_denotes_entry (p : Platform) (fuel : Nat) (w : World σ τ) (line : Str) (l : List Str) (h : completions p fuel w line = .ok l) (c : Str) (hc : c ∈ l) :
    c ∈ globalNames ∨ ∃ path ws ms q e, w.tree.locate w.current = some path ∧ WalkVia path ws ms q ∧ NameIn w.dis q e ∧ c = spell ws e := by
  obtain ⟨gap, typed, path, rfl, hg, hp, _, hm⟩ := completions_spec h
  rcases (hm c).1 hc with ⟨h, _⟩ | ⟨ws, q, r, e, h1, h2, rfl⟩
  · exact .inl h
  · obtain ⟨ms, h3⟩ := typing_walk h1
    exact .inr ⟨path, ws, ms, q, e, hp, h3, begins_name h2, rfl⟩

/-- **C35** Precisely: what is offered for a line are the global commands that start with what was typed, and the spellings of all ways of reading what was typed as a walk from
    the current menu followed by the beginning of an enabled entry's name (`Offered`). -/
theorem C35_exactly (p : Platform) (fuel : Nat) (w : World σ τ) (gap typed : Str) (hg : Gap gap typed) (path : Path) (hp : w.tree.locate w.current = some path) (l : List Str)
    (h : completions p fuel w (gap ++ typed) = .ok l) (c : Str) : c ∈ l ↔ (c ∈ globalNames ∧ typed <+: c) ∨ Offered w.dis path typed c := by
  obtain ⟨gap', typed', path', h1, hg', hp', _, hm⟩ := completions_spec h
  obtain ⟨-, rfl⟩ := gap_unique hg hg' h1
  rw [hp] at hp'
  cases hp'
  exact hm c

/-- **C35** (partial) Every enabled entry of the current menu whose name starts with the typed text is offered, except a menu whose name has been typed in full (refuted below). -/
theorem C35_all_offered_partial (p : Platform) (fuel : Nat) (w : World σ τ) (gap typed : Str) (hg : Gap gap typed) (m : MenuInfo) (kids : Forest) (anc : Path)
    (hp : w.tree.locate w.current = some ((m, kids) :: anc)) (l : List Str) (h : completions p fuel w (gap ++ typed) = .ok l) :
    (∀ c, .cmd c ∈ entries kids → w.dis c.id = false → typed <+: c.name → c.name ∈ l) ∧
    (∀ m' k, .menu m' k ∈ entries kids → w.dis m'.id = false → typed <+: m'.name → typed ≠ m'.name → m'.name ∈ l) := by
  constructor
  · intro c h1 h2 h3
    exact (C35_exactly p fuel w gap typed hg _ hp l h _).2 (.inr ⟨[], _, typed, c.name, .here _ _, .cmd h1 h2 h3, rfl⟩)
  · intro m' k h1 h2 h3 h4
    exact (C35_exactly p fuel w gap typed hg _ hp l h _).2 (.inr ⟨[], _, typed, m'.name, .here _ _, .menu h1 h2 h3 h4, rfl⟩)

/-- **C35** is false of the code for the name of a menu typed in full: only what is inside is offered (here nothing). -/
theorem C35_menu_typed_in_full_refuted : ∃ (w : World (List Nat) (List Str)), w.tree = ⟨Sample.root, .menu Sample.sub .nil .nil⟩ ∧ w.dis Sample.sub.id = false ∧ w.current = Sample.root.id ∧
    ∀ fuel l, completions Sample.app.plat fuel w bs!"sub" = .ok l → bs!"sub" ∉ l := by
  refine ⟨{ Sample.world with tree := ⟨Sample.root, .menu Sample.sub .nil .nil⟩ }, rfl, rfl, rfl, ?_⟩
  intro fuel l h hc
  rcases (C35_exactly _ fuel _ [] bs!"sub" ⟨by simp, by decide⟩ _ rfl l h _).1 hc with ⟨h, _⟩ | ⟨ws, q, r, e, h1, h2, h3⟩
  · revert h; decide
  · cases ws with
    | cons x ws =>
      have : b%' ' ∈ bs!"sub" := by rw [h3, spell_cons]; simp
      revert this; decide
    | nil =>
      have hq : [(Sample.root, .menu Sample.sub .nil .nil)] = q ∧ bs!"sub" = r := by
        generalize bs!"sub" = s at h1
        generalize ([(Sample.root, .menu Sample.sub .nil .nil)] : Path) = pth at h1
        cases h1; exact ⟨rfl, rfl⟩
      obtain ⟨rfl, rfl⟩ := hq
      cases h2 with
      | cmd h => simp [entries] at h
      | menu h _ _ hne =>
        simp only [entries, List.mem_singleton, Entry.menu.injEq] at h
        rw [h.1] at hne
        exact hne rfl

/-- **C36** (partial) The entry that a completion leads to is enabled, and the menus on the way to it are those whose names have been typed already: completion adds no step through a
    menu. Missing: that the menus already typed are enabled (refuted below), and that the current menu is. -/
theorem C36_enabled_partial (p : Platform) (fuel : Nat) (w : World σ τ) (line : Str) (l : List Str) (h : completions p fuel w line = .ok l) (c : Str) (hc : c ∈ l) :
    c ∈ globalNames ∨ ∃ gap typed path ws q r e, line = gap ++ typed ∧ Gap gap typed ∧ w.tree.locate w.current = some path ∧ Typing path typed ws q r ∧ r <+: e ∧ NameIn w.dis q e ∧
      c = spell ws e := by
  obtain ⟨gap, typed, path, rfl, hg, hp, _, hm⟩ := completions_spec h
  rcases (hm c).1 hc with ⟨h, _⟩ | ⟨ws, q, r, e, h1, h2, rfl⟩
  · exact .inl h
  · exact .inr ⟨gap, typed, path, ws, q, r, e, rfl, hg, hp, h1, begins_prefix h2, begins_name h2, rfl⟩

/-- **C36** (partial) If the typed text does not begin with the name of a neighbour of the current menu or with `..`, the completions are names of enabled entries only. -/
theorem C36_first_word_partial (p : Platform) (fuel : Nat) (w : World σ τ) (gap typed : Str) (hg : Gap gap typed) (m : MenuInfo) (kids : Forest) (anc : Path)
    (hp : w.tree.locate w.current = some ((m, kids) :: anc)) (l : List Str) (h : completions p fuel w (gap ++ typed) = .ok l)
    (hn : ∀ m' k, .menu m' k ∈ entries kids → ¬ m'.name <+: typed) (hup : ∀ q ∈ anc.head?, ¬ q.1.name <+: typed ∧ ¬ bs!".." <+: typed) (c : Str) (hc : c ∈ l) :
    c ∈ globalNames ∨ NameIn w.dis ((m, kids) :: anc) c := by
  rcases (C35_exactly p fuel w gap typed hg _ hp l h _).1 hc with ⟨h, _⟩ | ⟨ws, q, r, e, h1, h2, rfl⟩
  · exact .inl h
  · cases h1 with
    | here => exact .inr (begins_name h2)
    | down h3 _ _ => exact absurd (by rw [List.append_assoc]; exact List.prefix_append _ _) (hn _ _ h3)
    | up _ _ => exact absurd (by rw [List.append_assoc]; exact List.prefix_append _ _) (hup _ rfl).1
    | dots _ _ _ => exact absurd (by rw [List.append_assoc]; exact List.prefix_append _ _) (hup _ rfl).2

/-- **C36** is false of the code: the content of the disabled menu `sub` is offered once its name has been typed. -/
theorem C36_disabled_menu_refuted : ∃ (w : World (List Nat) (List Str)), w.tree = Sample.tree ∧ w.current = Sample.root.id ∧ w.dis Sample.sub.id = true ∧
    completions Sample.app.plat 3 w bs!"sub g" = .ok [bs!"sub go"] :=
  ⟨{ Sample.world with dis := fun i => i = 3 }, rfl, rfl, rfl, rfl⟩

/-- **C36** (refuted, in general) When the name of a menu has been typed, whether the menu is enabled or not, its enabled commands are offered. -/
theorem C36_disabled_menu (p : Platform) (fuel : Nat) (w : World σ τ) (m m' : MenuInfo) (kids k : Forest) (anc : Path) (hp : w.tree.locate w.current = some ((m, kids) :: anc)) (hm : .menu m' k ∈ entries kids)
    (c : Cmd) (hc : .cmd c ∈ entries k) (he : w.dis c.id = false) (gap first rest : Str) (hf : Gap first (m'.name ++ gap ++ rest)) (hg : Gap gap rest) (hr : rest <+: c.name) (l : List Str)
    (h : completions p fuel w (first ++ (m'.name ++ gap ++ rest)) = .ok l) : m'.name ++ bs!" " ++ c.name ∈ l :=
  (C35_exactly p fuel w first _ hf _ hp l h _).2 (.inr ⟨[m'.name], _, rest, c.name, .down hm hg (.here _ _), .cmd hc he hr, by simp [spell]⟩)

/-- **C37** (partial) If no menu without a name contains another one without a name, the recursion is at most twice as deep as the line is long, plus two. -/
theorem C37_terminates_partial (p : Platform) (w : World σ τ) (line : Str) (hs : Separated (w.tree.root.name = []) w.tree.kids) (fuel : Nat) (hf : 2 * line.length + 2 ≤ fuel) :
    completions p fuel w line ≠ .error .stackOverflow := by
  intro h
  simp only [completions, bind, Except.bind] at h
  split at h
  · rename_i e he; cases h; cases trim_fault he
  · rename_i typed ht
    have hlen := trim_length ht
    split at h
    · cases h
    · rename_i path hp
      split at h
      · rename_i e he
        cases h
        have hg := tree_good hs hp
        cases path with
        | nil => cases he
        | cons mk anc =>
          obtain ⟨m, k⟩ := mk
          have hneed : ∀ q, need q typed ≤ fuel := by
            intro q
            cases q with
            | nil => simp [need]
            | cons x q => obtain ⟨x, y⟩ := x; simp only [need]; split <;> omega
          rcases current_fault he with ⟨m', k', hm', he'⟩ | he'
          · cases menu_fault p w.dis fuel false _ typed _ (good_down hg hm') (hneed _) he'
          · cases menu_fault p w.dis fuel true anc typed _ hg.2.2 (hneed _) he'
      · cases h

/-- The result does not depend on the depth allowed: the model's bound is not a restriction. -/
theorem C37_depth_irrelevant (p : Platform) (w : World σ τ) (line : Str) (n k : Nat) (h : completions p n w line ≠ .error .stackOverflow) :
    completions p (n + k) w line = completions p n w line := by
  induction k with
  | zero => rfl
  | succ k ih =>
    rw [← ih] at h ⊢
    rw [← Nat.add_assoc]
    simp only [completions, bind, Except.bind] at h ⊢
    cases ht : trimLeft p line with
    | error f => rfl
    | ok typed =>
      rw [ht] at h
      simp only at h ⊢
      cases hl : w.tree.locate w.current with
      | none => rfl
      | some path =>
        rw [hl] at h
        simp only at h ⊢
        rw [current_mono (menu_mono p w.dis (n + k)) path typed (fun hc => h (by rw [hc]))]

/-- A menu without a name in a root menu without a name. -/
def nameless : World (List Nat) (List Str) := { Sample.world with tree := ⟨Sample.info 0 [], .menu (Sample.info 1 []) .nil .nil⟩ }

/-- **C37** is false of the code: for a menu without a name in a root menu without a name the recursion never ends. -/
theorem C37_nameless_refuted (fuel : Nat) : completions Sample.app.plat fuel nameless bs!"" = .error .stackOverflow := by
  have key : ∀ fuel, (∀ via, complMenu Sample.app.plat nameless.dis fuel via [(Sample.info 1 [], .nil), (Sample.info 0 [], nameless.tree.kids)] [] = .error .stackOverflow) ∧
      (∀ via, complMenu Sample.app.plat nameless.dis fuel via [(Sample.info 0 [], nameless.tree.kids)] [] = .error .stackOverflow) := by
    intro fuel
    induction fuel with
    | zero => exact ⟨fun _ => rfl, fun _ => rfl⟩
    | succ fuel ih =>
      have hk : nameless.tree.kids = .menu (Sample.info 1 []) .nil .nil := rfl
      constructor
      · intro via
        rw [complMenu_eq, if_pos (by rfl)]
        simp only [completeRest, complCurrent, bind, Except.bind, complEntries, trimLeft, List.drop_nil]
        rw [ih.2 true]
      · intro via
        rw [complMenu_eq, if_pos (by rfl)]
        simp only [completeRest, complCurrent, bind, Except.bind, trimLeft, List.drop_nil, hk, complEntries]
        rw [← hk, ih.1 false]
  have hk : nameless.tree.kids = .menu (Sample.info 1 []) .nil .nil := rfl
  simp only [completions, trimLeft, bind, Except.bind]
  rw [show nameless.tree.locate nameless.current = some [(Sample.info 0 [], nameless.tree.kids)] from rfl]
  simp only [complCurrent, bind, Except.bind]
  conv => lhs; rw [hk]; simp only [complEntries, bind, Except.bind]
  have h := (key fuel).1 false
  rw [hk] at h
  simp only [h]

theorem trim_safe {p : Platform} {s : Str} (h : p.charSigned = false ∨ ∀ c ∈ s, c.toNat < 128) : ∃ r, trimLeft p s = .ok r := by
  induction s with
  | nil => exact ⟨[], rfl⟩
  | cons c s ih =>
    have hc : p.ctypeUB c = false := by
      unfold Platform.ctypeUB
      rcases h with h | h
      · simp [h]
      · have := h c (by simp); simp; omega
    simp only [trimLeft, hc, Bool.false_eq_true, if_false]
    split
    · exact ih (h.imp_right fun h x hx => h x (by simp [hx]))
    · exact ⟨_, rfl⟩

/-- `std::isspace` may be called with each character of the string. -/
def Safe (p : Platform) (s : Str) : Prop := p.charSigned = false ∨ ∀ c ∈ s, c.toNat < 128

theorem safe_trim {p : Platform} {s r : Str} (h : trimLeft p s = .ok r) (hs : Safe p s) : Safe p r := by
  obtain ⟨g, rfl, _⟩ := trim_spec h
  exact hs.imp_right fun h x hx => h x (by simp [hx])

theorem current_safe {p : Platform} {dis : Id → Bool} {fuel : Nat} {line : Str} (hM : ∀ via path f, complMenu p dis fuel via path line = .error f → f = .stackOverflow) (path : Path) (f : Fault)
    (h : complCurrent p dis fuel line path = .error f) : f = .stackOverflow := by
  cases path with
  | nil => cases h
  | cons mk anc =>
    obtain ⟨m, k⟩ := mk
    rcases current_fault h with ⟨m', k', _, he⟩ | he
    · exact hM _ _ _ he
    · exact hM _ _ _ he

theorem menu_safe (p : Platform) (dis : Id → Bool) : ∀ (fuel : Nat) (via : Bool) (path : Path) (line : Str), Safe p line → ∀ f, complMenu p dis fuel via path line = .error f → f = .stackOverflow := by
  intro fuel
  induction fuel with
  | zero =>
    intro via path line _ f h
    cases path with
    | nil => cases h
    | cons mk anc => cases h; rfl
  | succ fuel ih =>
    intro via path line hs f h
    cases path with
    | nil => cases h
    | cons mk anc =>
      obtain ⟨m, k⟩ := mk
      rw [complMenu_eq] at h
      have key : ∀ pre, completeRest p dis fuel ((m, k) :: anc) line pre = .error f → f = .stackOverflow := by
        intro pre h
        have hd : Safe p (line.drop pre.length) := hs.imp_right fun h x hx => h x (List.mem_of_mem_drop hx)
        obtain ⟨rest, hr⟩ := trim_safe hd
        simp only [completeRest, bind, Except.bind, hr] at h
        split at h
        · rename_i e he
          cases h
          exact current_safe (fun via path f => ih via path rest (safe_trim hr hd) f) _ _ he
        · cases h
      split at h
      · exact key _ h
      · split at h
        · exact key _ h
        · cases h

/-- **C63** (partial) Completion is defined for every line of ASCII characters, and for every line if `char` is unsigned (if the current menu exists, and no menu without a name contains another one). -/
theorem C63_defined_partial (p : Platform) (w : World σ τ) (line : Str) (hs : Separated (w.tree.root.name = []) w.tree.kids) (hc : (w.tree.locate w.current).isSome)
    (hl : p.charSigned = false ∨ ∀ c ∈ line, c.toNat < 128) (fuel : Nat) (hf : 2 * line.length + 2 ≤ fuel) : ∃ l, completions p fuel w line = .ok l := by
  cases h : completions p fuel w line with
  | ok l => exact ⟨l, rfl⟩
  | error f =>
    exfalso
    have hne := C37_terminates_partial p w line hs fuel hf
    rw [h] at hne
    refine hne (congrArg _ ?_)
    simp only [completions, bind, Except.bind] at h
    obtain ⟨typed, ht⟩ := trim_safe hl
    rw [ht] at h
    simp only at h
    obtain ⟨path, hp⟩ := Option.isSome_iff_exists.1 hc
    simp only [hp] at h
    split at h
    · rename_i e he
      cases h
      exact current_safe (fun via path => menu_safe p w.dis fuel via path typed (safe_trim ht hl)) path _ he
    · cases h

example : ∃ l, completions Sample.app.plat 40 Sample.world bs!"sub deep .. d" = .ok l :=
  C63_defined_partial _ _ _ (by simp [Separated, Sample.world, Sample.tree, Sample.kids, Sample.subKids, Sample.deepKids, Sample.root, Sample.sub, Sample.deep, Sample.info]) (by decide) (.inr (by decide)) _
    (by decide)

/-- **C63** is false of the code where `char` is signed: a line that starts with a character outside ASCII makes `std::isspace` be called with a negative value. -/
theorem C63_non_ascii_refuted (w : World σ τ) (p : Platform) (hp : p.charSigned = true) (fuel : Nat) : completions p fuel w [0xC3, 0xA9] = .error (.ub .ctype) := by
  simp [completions, trimLeft, Platform.ctypeUB, hp, bind, Except.bind]

/-! Concrete cases, in the sample application's menus. -/

example : completions Sample.app.plat 10 Sample.world bs!"  a" = .ok [bs!"add", bs!"any"] := by rfl
example : completions Sample.app.plat 10 Sample.world bs!"sub d" = .ok [bs!"sub deep", bs!"sub drop"] := by rfl
example : completions Sample.app.plat 10 { Sample.world with current := 3 } bs!".. an" = .ok [bs!".. any"] := by rfl
example : completions Sample.app.plat 10 Sample.world bs!"subg" = .ok [bs!"sub go"] := by rfl
example : Separated (Sample.world.tree.root.name = []) Sample.world.tree.kids := by
  simp [Separated, Sample.world, Sample.tree, Sample.kids, Sample.subKids, Sample.deepKids, Sample.root, Sample.sub, Sample.deep, Sample.info]

end Verif.Props
