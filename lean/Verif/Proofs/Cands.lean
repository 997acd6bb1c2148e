import Verif.Spec.Walk

set_option linter.unusedSimpArgs false

/-!
# The list of all designations in search order
-/

namespace Verif.Spec

abbrev Cand := List Nat × Target

def candEntries (dis : Id → Bool) (toks : List Str) (sub : MenuInfo → Forest → List Cand) (i : Nat) : Forest → List Cand
  | .nil => []
  | .cmd c rest =>
    (match toks with
      | [] => []
      | t :: args => if dis c.id = false ∧ c.name = t then [([i], .cmd c args)] else [])
    ++ candEntries dis toks sub (i + 1) rest
  | .menu m kids rest => (sub m kids).map (fun x => (i :: x.1, x.2)) ++ candEntries dis toks sub (i + 1) rest

def candHandle (dis : Id → Bool) : List Str → Bool → Path → List Cand
  | _, _, [] => []
  | [], _, _ => []
  | t :: rest, via, (m, kids) :: anc =>
    if dis m.id then []
    else if t = m.name ∨ (via = true ∧ t = bs!"..") then
      if rest = [] then [([], .menu ((m, kids) :: anc))]
      else
        candEntries dis rest (fun m' kids' => candHandle dis rest false ((m', kids') :: (m, kids) :: anc)) 0 kids
        ++ (candHandle dis rest true anc).map (fun x => ((entries kids).length :: x.1, x.2))
    else []

def cands (dis : Id → Bool) (toks : List Str) : Path → List Cand
  | [] => []
  | (m, kids) :: anc =>
    if dis m.id then []
    else
      candEntries dis toks (fun m' kids' => candHandle dis toks false ((m', kids') :: (m, kids) :: anc)) 0 kids
      ++ (candHandle dis toks true anc).map (fun x => ((entries kids).length :: x.1, x.2))

/-! ### Membership -/

theorem mem_candEntries (dis : Id → Bool) (toks : List Str) (sub : MenuInfo → Forest → List Cand) (x : Cand) (f : Forest) : ∀ i,
    x ∈ candEntries dis toks sub i f ↔
      (∃ j c args, (entries f)[j]? = some (.cmd c) ∧ dis c.id = false ∧ toks = c.name :: args ∧ x = ([i + j], .cmd c args)) ∨
      (∃ j m k y, (entries f)[j]? = some (.menu m k) ∧ y ∈ sub m k ∧ x = ((i + j) :: y.1, y.2)) := by
  induction f with
  | nil => intro i; simp [candEntries, entries]
  | cmd c rest ih =>
    intro i
    simp only [candEntries, List.mem_append, ih, entries]
    constructor
    · rintro (h | ⟨j, c', args, h1, h2, h3, h4⟩ | ⟨j, m, k, y, h1, h2, h3⟩)
      · cases toks with
        | nil => simp at h
        | cons t args =>
          simp only at h
          split at h
          · rename_i hc
            simp only [List.mem_singleton] at h
            exact .inl ⟨0, c, args, rfl, hc.1, by rw [hc.2], by rw [h]; rfl⟩
          · simp at h
      · exact .inl ⟨j + 1, c', args, h1, h2, h3, by rw [h4]; simp; omega⟩
      · exact .inr ⟨j + 1, m, k, y, h1, h2, by rw [h3]; simp; omega⟩
    · rintro (⟨j, c', args, h1, h2, h3, h4⟩ | ⟨j, m, k, y, h1, h2, h3⟩)
      · cases j with
        | zero =>
          simp at h1; subst h1
          left; subst h3; simp [h2, h4]
        | succ j => exact .inr (.inl ⟨j, c', args, h1, h2, h3, by rw [h4]; simp; omega⟩)
      · cases j with
        | zero => simp at h1
        | succ j => exact .inr (.inr ⟨j, m, k, y, h1, h2, by rw [h3]; simp; omega⟩)
  | menu m kids rest _ ih =>
    intro i
    simp only [candEntries, List.mem_append, ih, entries, List.mem_map]
    constructor
    · rintro (⟨y, h1, h2⟩ | ⟨j, c', args, h1, h2, h3, h4⟩ | ⟨j, m, k, y, h1, h2, h3⟩)
      · exact .inr ⟨0, m, kids, y, rfl, h1, h2.symm⟩
      · exact .inl ⟨j + 1, c', args, h1, h2, h3, by rw [h4]; simp; omega⟩
      · exact .inr ⟨j + 1, m, k, y, h1, h2, by rw [h3]; simp; omega⟩
    · rintro (⟨j, c', args, h1, h2, h3, h4⟩ | ⟨j, m', k, y, h1, h2, h3⟩)
      · cases j with
        | zero => simp at h1
        | succ j => exact .inr (.inl ⟨j, c', args, h1, h2, h3, by rw [h4]; simp; omega⟩)
      · cases j with
        | zero =>
          simp at h1; obtain ⟨rfl, rfl⟩ := h1
          exact .inl ⟨y, h2, h3.symm⟩
        | succ j => exact .inr (.inr ⟨j, m', k, y, h1, h2, by rw [h3]; simp; omega⟩)

/-- What is designated by the tokens, the first of which leads into the menu `path` (from above or, if `via`, from below). -/
def Into (dis : Id → Bool) (toks : List Str) (via : Bool) (path : Path) (x : Cand) : Prop :=
  ∃ m kids anc t rest, path = (m, kids) :: anc ∧ toks = t :: rest ∧ dis m.id = false ∧ (t = m.name ∨ (via = true ∧ t = bs!"..")) ∧
    ((rest = [] ∧ x = ([], .menu path)) ∨ (rest ≠ [] ∧ Des dis path rest x.1 x.2))

/-- The two ways of going on from a menu, and commands. -/
theorem des_iff (dis : Id → Bool) (m : MenuInfo) (kids : Forest) (anc : Path) (toks : List Str) (x : Cand) :
    Des dis ((m, kids) :: anc) toks x.1 x.2 ↔
      (∃ j c args, (entries kids)[j]? = some (.cmd c) ∧ dis c.id = false ∧ toks = c.name :: args ∧ x = ([j], .cmd c args)) ∨
      (∃ j m' k y, (entries kids)[j]? = some (.menu m' k) ∧ Into dis toks false ((m', k) :: (m, kids) :: anc) y ∧ x = (j :: y.1, y.2)) ∨
      (∃ y, Into dis toks true anc y ∧ x = ((entries kids).length :: y.1, y.2)) := by
  obtain ⟨cs, tgt⟩ := x
  simp only
  constructor
  · intro h
    generalize hp : (m, kids) :: anc = path at h
    cases h with
    | here h1 h2 => cases hp; exact .inl ⟨_, _, _, h1, h2, rfl, rfl⟩
    | enter hs =>
      cases hs with
      | down h1 h2 => cases hp; exact .inr (.inl ⟨_, _, _, ([], .menu _), h1, ⟨_, _, _, _, _, rfl, rfl, h2, .inl rfl, .inl ⟨rfl, rfl⟩⟩, rfl⟩)
      | up h1 h2 =>
        cases hp
        exact .inr (.inr ⟨([], .menu _), ⟨_, _, _, _, _, rfl, rfl, h1, by simpa using h2, .inl ⟨rfl, rfl⟩⟩, rfl⟩)
    | step hs hd =>
      cases hs with
      | down h1 h2 =>
        cases hp
        exact .inr (.inl ⟨_, _, _, (_, _), h1, ⟨_, _, _, _, _, rfl, rfl, h2, .inl rfl, .inr ⟨by simp, hd⟩⟩, rfl⟩)
      | up h1 h2 =>
        cases hp
        exact .inr (.inr ⟨(_, _), ⟨_, _, _, _, _, rfl, rfl, h1, by simpa using h2, .inr ⟨by simp, hd⟩⟩, rfl⟩)
  · rintro (⟨j, c, args, h1, h2, rfl, h4⟩ | ⟨j, m', k, y, h1, h2, h3⟩ | ⟨y, h1, h2⟩)
    · cases h4; exact .here h1 h2
    · obtain ⟨m'', k'', anc'', t, rest, hp, rfl, hd, hn, hr⟩ := h2
      cases hp
      simp only [Bool.false_eq_true, false_and, or_false] at hn
      subst hn
      cases h3
      rcases hr with ⟨rfl, rfl⟩ | ⟨hne, hdes⟩
      · exact .enter (.down h1 hd)
      · cases rest with
        | nil => exact absurd rfl hne
        | cons t' ts => exact .step (.down h1 hd) hdes
    · obtain ⟨m'', k'', anc'', t, rest, hp, rfl, hd, hn, hr⟩ := h1
      cases h2
      cases hp
      have hn' : t = m''.name ∨ t = bs!".." := by simpa using hn
      rcases hr with ⟨rfl, rfl⟩ | ⟨hne, hdes⟩
      · exact .enter (.up hd hn')
      · cases rest with
        | nil => exact absurd rfl hne
        | cons t' ts => exact .step (.up hd hn') hdes

theorem mem_inside (dis : Id → Bool) (toks : List Str) (m : MenuInfo) (kids : Forest) (anc : Path)
    (ih : ∀ via path x, x ∈ candHandle dis toks via path ↔ Into dis toks via path x) (x : Cand) :
    (x ∈ candEntries dis toks (fun m' kids' => candHandle dis toks false ((m', kids') :: (m, kids) :: anc)) 0 kids
      ++ (candHandle dis toks true anc).map (fun x => ((entries kids).length :: x.1, x.2)))
    ↔ Des dis ((m, kids) :: anc) toks x.1 x.2 := by
  rw [des_iff, List.mem_append, mem_candEntries]
  simp only [Nat.zero_add, List.mem_map, ih, or_assoc]
  constructor
  · rintro (h | h | ⟨y, h1, h2⟩)
    · exact .inl h
    · exact .inr (.inl h)
    · exact .inr (.inr ⟨y, h1, h2.symm⟩)
  · rintro (h | h | ⟨y, h1, h2⟩)
    · exact .inl h
    · exact .inr (.inl h)
    · exact .inr (.inr ⟨y, h1, h2.symm⟩)

theorem mem_candHandle (dis : Id → Bool) (toks : List Str) : ∀ (via : Bool) (path : Path) (x : Cand),
    x ∈ candHandle dis toks via path ↔ Into dis toks via path x := by
  induction toks with
  | nil =>
    intro via path x
    cases path <;> simp [candHandle, Into]
  | cons t rest ih =>
    intro via path x
    cases path with
    | nil => simp [candHandle, Into]
    | cons mk anc =>
      obtain ⟨m, kids⟩ := mk
      simp only [candHandle]
      have key : Into dis (t :: rest) via ((m, kids) :: anc) x ↔ dis m.id = false ∧ (t = m.name ∨ (via = true ∧ t = bs!"..")) ∧
          ((rest = [] ∧ x = ([], .menu ((m, kids) :: anc))) ∨ (rest ≠ [] ∧ Des dis ((m, kids) :: anc) rest x.1 x.2)) := by
        constructor
        · rintro ⟨m', k', a', t', r', h1, h2, h3, h4, h5⟩
          cases h1; cases h2; exact ⟨h3, h4, h5⟩
        · rintro ⟨h3, h4, h5⟩
          exact ⟨m, kids, anc, t, rest, rfl, rfl, h3, h4, h5⟩
      rw [key]
      by_cases hd : dis m.id = true
      · simp [hd]
      · have hd' : dis m.id = false := by simpa using hd
        by_cases hn : t = m.name ∨ (via = true ∧ t = bs!"..")
        · by_cases hr : rest = []
          · simp [hd', hn, hr]
          · rw [if_neg hd, if_pos hn, if_neg hr, mem_inside dis rest m kids anc ih]
            simp [hd', hn, hr]
        · rw [if_neg hd, if_neg hn]
          simp [hn]

/-- The list contains exactly the designations. -/
theorem mem_cands (dis : Id → Bool) (toks : List Str) (path : Path) (x : Cand) :
    x ∈ cands dis toks path ↔ Enabled dis path ∧ Des dis path toks x.1 x.2 := by
  cases path with
  | nil => simp [cands, Enabled]
  | cons mk anc =>
    obtain ⟨m, kids⟩ := mk
    simp only [cands, Enabled]
    by_cases hd : dis m.id = true
    · simp [hd]
    · have hd' : dis m.id = false := by simpa using hd
      rw [if_neg hd, mem_inside dis toks m kids anc (mem_candHandle dis toks)]
      simp [hd']

/-! ### Order -/


def Before (x y : Cand) : Prop := Lex x.1 y.1

theorem candEntries_head (dis : Id → Bool) (toks : List Str) (sub : MenuInfo → Forest → List Cand) (f : Forest) (i : Nat) (x : Cand)
    (hx : x ∈ candEntries dis toks sub i f) : ∃ j r, x.1 = j :: r ∧ i ≤ j ∧ j < i + (entries f).length := by
  rw [mem_candEntries] at hx
  rcases hx with ⟨j, c, args, h1, _, _, h4⟩ | ⟨j, m, k, y, h1, _, h3⟩
  · have := (List.getElem?_eq_some_iff.1 h1).1
    exact ⟨i + j, [], by rw [h4], by omega, by omega⟩
  · have := (List.getElem?_eq_some_iff.1 h1).1
    exact ⟨i + j, y.1, by rw [h3], by omega, by omega⟩

theorem pairwise_cons_map (n : Nat) (l : List Cand) (h : l.Pairwise Before) :
    (l.map (fun x => (n :: x.1, x.2))).Pairwise Before := by
  rw [List.pairwise_map]
  exact h.imp (fun {a b} hab => Or.inr ⟨rfl, hab⟩)

theorem sorted_candEntries (dis : Id → Bool) (toks : List Str) (sub : MenuInfo → Forest → List Cand)
    (hs : ∀ m k, (sub m k).Pairwise Before) (f : Forest) : ∀ i, (candEntries dis toks sub i f).Pairwise Before := by
  induction f with
  | nil => intro i; simp [candEntries]
  | cmd c rest ih =>
    intro i
    simp only [candEntries]
    rw [List.pairwise_append]
    refine ⟨?_, ih _, ?_⟩
    · split
      · simp
      · split <;> simp
    · intro x hx y hy
      obtain ⟨j, r, h1, h2, _⟩ := candEntries_head _ _ _ _ _ _ hy
      have hx' : x.1 = [i] := by
        split at hx
        · simp at hx
        · split at hx
          · simp only [List.mem_singleton] at hx; rw [hx]
          · simp at hx
      simp only [Before, hx', h1, Lex]
      left; omega
  | menu m kids rest _ ih =>
    intro i
    simp only [candEntries]
    rw [List.pairwise_append]
    refine ⟨pairwise_cons_map _ _ (hs m kids), ih _, ?_⟩
    intro x hx y hy
    obtain ⟨j, r, h1, h2, _⟩ := candEntries_head _ _ _ _ _ _ hy
    simp only [List.mem_map] at hx
    obtain ⟨z, _, rfl⟩ := hx
    simp only [Before, h1, Lex]
    left; omega

theorem sorted_inside (dis : Id → Bool) (toks : List Str) (m : MenuInfo) (kids : Forest) (anc : Path)
    (ih : ∀ via path, (candHandle dis toks via path).Pairwise Before) :
    (candEntries dis toks (fun m' kids' => candHandle dis toks false ((m', kids') :: (m, kids) :: anc)) 0 kids
      ++ (candHandle dis toks true anc).map (fun x => ((entries kids).length :: x.1, x.2))).Pairwise Before := by
  rw [List.pairwise_append]
  refine ⟨sorted_candEntries _ _ _ (fun _ _ => ih _ _) _ _, pairwise_cons_map _ _ (ih _ _), ?_⟩
  intro x hx y hy
  obtain ⟨j, r, h1, _, h3⟩ := candEntries_head _ _ _ _ _ _ hx
  simp only [List.mem_map] at hy
  obtain ⟨z, _, rfl⟩ := hy
  simp only [Before, h1, Lex]
  left; omega

theorem sorted_candHandle (dis : Id → Bool) (toks : List Str) : ∀ (via : Bool) (path : Path),
    (candHandle dis toks via path).Pairwise Before := by
  induction toks with
  | nil => intro via path; cases path <;> simp [candHandle]
  | cons t rest ih =>
    intro via path
    cases path with
    | nil => simp [candHandle]
    | cons mk anc =>
      obtain ⟨m, kids⟩ := mk
      simp only [candHandle]
      split
      · simp
      · split
        · split
          · simp
          · exact sorted_inside dis rest m kids anc ih
        · simp

/-- The list is in search order. -/
theorem sorted_cands (dis : Id → Bool) (toks : List Str) (path : Path) : (cands dis toks path).Pairwise Before := by
  cases path with
  | nil => simp [cands]
  | cons mk anc =>
    obtain ⟨m, kids⟩ := mk
    simp only [cands]
    split
    · simp
    · exact sorted_inside dis toks m kids anc (sorted_candHandle dis toks)

/-! ### Designations and walks -/

theorem stepAt_step {dis : Id → Bool} {p q : Path} {t : Str} {i : Nat} (h : StepAt dis p t i q) : Step dis p t q := by
  cases h with
  | down h1 h2 => exact .down (List.mem_of_getElem? h1) h2
  | up h1 h2 => exact .up h1 h2

theorem step_stepAt {dis : Id → Bool} {p q : Path} {t : Str} (h : Step dis p t q) : ∃ i, StepAt dis p t i q := by
  cases h with
  | down h1 h2 =>
    obtain ⟨i, hi⟩ := List.mem_iff_getElem?.1 h1
    exact ⟨i, .down hi h2⟩
  | up h1 h2 => exact ⟨_, .up h1 h2⟩

theorem des_walk {dis : Id → Bool} {p : Path} {toks : List Str} {cs : List Nat} {x : Target} (h : Des dis p toks cs x) :
    match x with
    | .cmd c args => ∃ ws q, toks = ws ++ c.name :: args ∧ Walk dis p ws q ∧ Contains q c ∧ dis c.id = false
    | .menu q => toks ≠ [] ∧ Walk dis p toks q := by
  induction h with
  | here h1 h2 => exact ⟨[], _, rfl, .stay _, List.mem_of_getElem? h1, h2⟩
  | enter h => exact ⟨by simp, .step (stepAt_step h) (.stay _)⟩
  | @step p t i q t' ts cs x hs _ ih =>
    cases x with
    | cmd c args =>
      obtain ⟨ws, r, h1, h2, h3, h4⟩ := ih
      exact ⟨t :: ws, r, by rw [h1]; rfl, .step (stepAt_step hs) h2, h3, h4⟩
    | menu r => exact ⟨by simp, .step (stepAt_step hs) ih.2⟩

theorem walk_des_cmd {dis : Id → Bool} {p q : Path} {ws : List Str} (h : Walk dis p ws q) (c : Cmd) (args : List Str)
    (hc : Contains q c) (hd : dis c.id = false) : ∃ cs, Des dis p (ws ++ c.name :: args) cs (.cmd c args) := by
  induction h with
  | stay p =>
    cases p with
    | nil => exact hc.elim
    | cons mk anc =>
      obtain ⟨m, kids⟩ := mk
      obtain ⟨i, hi⟩ := List.mem_iff_getElem?.1 hc
      exact ⟨[i], .here hi hd⟩
  | @step p q r t ts hs _ ih =>
    obtain ⟨cs, hcs⟩ := ih hc
    obtain ⟨i, hi⟩ := step_stepAt hs
    cases ts with
    | nil => exact ⟨i :: cs, .step hi hcs⟩
    | cons t' ts => exact ⟨i :: cs, .step hi hcs⟩

theorem walk_des_menu {dis : Id → Bool} {p q : Path} {ws : List Str} (h : Walk dis p ws q) (hne : ws ≠ []) :
    ∃ cs, Des dis p ws cs (.menu q) := by
  induction h with
  | stay p => exact absurd rfl hne
  | @step p q r t ts hs hw ih =>
    obtain ⟨i, hi⟩ := step_stepAt hs
    cases ts with
    | nil => cases hw; exact ⟨[i], .enter hi⟩
    | cons t' ts =>
      obtain ⟨cs, hcs⟩ := ih (by simp)
      exact ⟨i :: cs, .step hi hcs⟩

theorem designatesCmd_iff (dis : Id → Bool) (p : Path) (toks : List Str) (c : Cmd) (args : List Str) :
    DesignatesCmd dis p toks c args ↔ ∃ cs, (cs, Target.cmd c args) ∈ cands dis toks p := by
  simp only [mem_cands]
  constructor
  · rintro ⟨he, ws, q, rfl, h2, h3, h4⟩
    obtain ⟨cs, h⟩ := walk_des_cmd h2 c args h3 h4
    exact ⟨cs, he, h⟩
  · rintro ⟨cs, he, h⟩
    exact ⟨he, des_walk h⟩

theorem designatesMenu_iff (dis : Id → Bool) (p : Path) (toks : List Str) (q : Path) :
    DesignatesMenu dis p toks q ↔ ∃ cs, (cs, Target.menu q) ∈ cands dis toks p := by
  simp only [mem_cands]
  constructor
  · rintro ⟨he, h1, h2⟩
    obtain ⟨cs, h⟩ := walk_des_menu h2 h1
    exact ⟨cs, he, h⟩
  · rintro ⟨cs, he, h⟩
    exact ⟨he, des_walk h⟩

end Verif.Spec
