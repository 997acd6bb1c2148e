import Verif.Model.Move

/-!
# C104: moving a `Cli`

Specification: a `Cli` is what it was made of (storage, menu, functions), wherever it has been moved to, and a session belongs to that, not to a place in memory.
-/

set_option linter.unusedSimpArgs false

namespace Verif.Move

/-- What a `Cli` is made of. -/
structure Whole where
  storage : Nat
  menu : Nat
  handlers : Handlers
  deriving DecidableEq, Repr

/-- The state of the specification: what is in each place, the sessions, the contents of the storages. -/
structure Ideal where
  holds : Nat → Option Whole
  sess : Nat → Option (Whole × List Str)
  contents : Nat → List Str

/-- Nothing exists yet. -/
def Ideal.empty : Ideal := ⟨fun _ => none, fun _ => none, fun _ => []⟩

/-- What has to happen. -/
def Ideal.step (i : Ideal) : Op → List Event × Ideal
  | .make c s m hs => ([], { i with holds := set i.holds c (some ⟨s, m, hs⟩), contents := set i.contents s [] })
  | .construct a b _ => ([], { i with holds := set (set i.holds a none) b (i.holds a) })
  | .assign a b _ => ([], { i with holds := if a = b then set i.holds a none else set (set i.holds a none) b (i.holds a) })
  | .destroy c => ([], { i with holds := set i.holds c none })
  | .enter k c =>
    match i.holds c with
    | none => ([], i)
    | some w => (.loaded w.storage k (i.contents w.storage) :: call w.handlers.enter k, { i with sess := set i.sess k (some (w, [])) })
  | .run k line =>
    match i.sess k with
    | none => ([], i)
    | some (w, typed) => ([.ran w.menu k line], { i with sess := set i.sess k (some (w, typed ++ [line])) })
  | .mistake k line =>
    match i.sess k with
    | none => ([], i)
    | some (w, typed) =>
      (match w.handlers.wrong with | some f => [.called f k] | none => [.wrong k line], { i with sess := set i.sess k (some (w, typed ++ [line])) })
  | .exit k =>
    match i.sess k with
    | none => ([], i)
    | some (w, typed) =>
      (call w.handlers.exit k ++ [.stored w.storage k (typed ++ [bs!"exit"])],
        { i with sess := set i.sess k (some (w, typed ++ [bs!"exit"])), contents := set i.contents w.storage (i.contents w.storage ++ (typed ++ [bs!"exit"])) })
  | .close k => ([], { i with sess := set i.sess k none })

/-- All that has to happen. -/
def Ideal.exec (i : Ideal) : List Op → List Event
  | [] => []
  | op :: ops => (i.step op).1 ++ (i.step op).2.exec ops

/-- What a careful programmer keeps in mind: which places hold a `Cli` that has not been moved away, and which sessions were made where. -/
structure Notes where
  whole : List Nat
  users : List (Nat × Nat)

/-- The place is used by no session. -/
def Notes.unused (n : Notes) (c : Nat) : Prop := ∀ k, (k, c) ∉ n.users

/-- What a careful programmer does: `Cli` objects that have sessions are not moved, assigned to, or destroyed, and sessions are made on a `Cli` that has not been moved away. -/
def Notes.allows (n : Notes) : Op → Prop
  | .construct a _ _ => n.unused a
  | .assign a b _ => n.unused a ∧ n.unused b
  | .destroy c => n.unused c
  | .enter _ c => c ∈ n.whole
  | _ => True

/-- The notes after an operation. -/
def Notes.after (n : Notes) : Op → Notes
  | .make c _ _ _ => { n with whole := c :: n.whole }
  | .construct a b _ => { n with whole := if a ∈ n.whole then b :: n.whole.filter (· != a) else n.whole }
  | .assign a b _ =>
    { n with whole :=
      if a = b then n.whole.filter (· != a)
      else if a ∈ n.whole then b :: n.whole.filter (· != a)
      else n.whole.filter (· != b) }
  | .destroy c => { n with whole := n.whole.filter (· != c) }
  | .enter k c => { n with users := (k, c) :: n.users }
  | .close k => { n with users := n.users.filter (fun u => u.1 != k) }
  | _ => n

/-- A careful program. -/
def Notes.Careful (n : Notes) : List Op → Prop
  | [] => True
  | op :: ops => n.allows op ∧ (n.after op).Careful ops

/-- Places, storages, menus and sessions agree with the notes and with the specification. -/
structure Agree (h : Heap) (n : Notes) (i : Ideal) : Prop where
  whole : ∀ c, c ∈ n.whole → ∃ w, i.holds c = some w
  held : ∀ c w, i.holds c = some w → c ∈ n.whole ∧ h.clis c = some ⟨some w.storage, some w.menu, w.handlers⟩
  storage : ∀ c o s, h.clis c = some o → o.storage = some s → h.storages s = some (i.contents s)
  menu : ∀ c o m, h.clis c = some o → o.menu = some m → h.menus m = true
  ownS : ∀ c d o p s, h.clis c = some o → h.clis d = some p → o.storage = some s → p.storage = some s → c = d
  ownM : ∀ c d o p m, h.clis c = some o → h.clis d = some p → o.menu = some m → p.menu = some m → c = d
  sess : ∀ k e, h.sessions k = some e → ∃ w, i.sess k = some (w, e.typed) ∧ e.current = some w.menu ∧ i.holds e.cli = some w ∧ (k, e.cli) ∈ n.users

theorem set_same {α : Type} (f : Nat → α) (i : Nat) (x : α) : set f i x i = x := by simp [set]

theorem set_other {α : Type} (f : Nat → α) (i j : Nat) (x : α) (h : j ≠ i) : set f i x j = f j := by simp [set, h]

theorem agree_empty : Agree .empty ⟨[], []⟩ .empty := by
  constructor <;> simp [Heap.empty, Ideal.empty]

theorem agree_make {h : Heap} {n : Notes} {i : Ideal} (H : Agree h n i) (c s m : Nat) (hs : Handlers)
    (hc : h.clis c = none) (hst : h.storages s = none) (hm : h.menus m = false) :
    Agree { h with clis := set h.clis c (some ⟨some s, some m, hs⟩), storages := set h.storages s (some []), menus := set h.menus m true }
      (n.after (.make c s m hs)) (i.step (.make c s m hs)).2 := by
  have nos : ∀ d o, h.clis d = some o → o.storage ≠ some s := fun d o hd he => by
    rw [H.storage d o s hd he] at hst; cases hst
  have nom : ∀ d o, h.clis d = some o → o.menu ≠ some m := fun d o hd he => by
    rw [H.menu d o m hd he] at hm; cases hm
  have noc : i.holds c = none := by
    cases hh : i.holds c with
    | none => rfl
    | some w => rw [(H.held c w hh).2] at hc; cases hc
  constructor
  · intro d hd
    by_cases e : d = c
    · exact ⟨_, by subst e; exact set_same _ _ _⟩
    · simp only [Notes.after, List.mem_cons, e, false_or] at hd
      obtain ⟨w, hw⟩ := H.whole d hd
      exact ⟨w, by simp [Ideal.step, set, e, hw]⟩
  · intro d w hd
    by_cases e : d = c
    · subst e
      simp [Ideal.step, set] at hd
      subst hd
      simp [Notes.after, set]
    · simp only [Ideal.step, set_other _ _ _ _ e] at hd
      have := H.held d w hd
      simp [Notes.after, set, e, this]
  · intro d o t hd ht
    by_cases e : d = c
    · simp [set, e] at hd
      subst hd
      simp at ht
      subst ht
      simp [Ideal.step, set]
    · simp only [set_other _ _ _ _ e] at hd
      have hne : t ≠ s := fun q => nos d o hd (q ▸ ht)
      simp [Ideal.step, set, hne, H.storage d o t hd ht]
  · intro d o t hd ht
    by_cases e : d = c
    · simp [set, e] at hd
      subst hd
      simp at ht
      subst ht
      simp [set]
    · simp only [set_other _ _ _ _ e] at hd
      have hne : t ≠ m := fun q => nom d o hd (q ▸ ht)
      simp [set, hne, H.menu d o t hd ht]
  · intro d d' o p t hd hd' ht ht'
    by_cases e : d = c <;> by_cases e' : d' = c
    · rw [e, e']
    · simp [set, e] at hd
      subst hd
      simp at ht
      subst ht
      simp only [set_other _ _ _ _ e'] at hd'
      exact absurd ht' (nos d' p hd')
    · simp [set, e'] at hd'
      subst hd'
      simp at ht'
      subst ht'
      simp only [set_other _ _ _ _ e] at hd
      exact absurd ht (nos d o hd)
    · simp only [set_other _ _ _ _ e, set_other _ _ _ _ e'] at hd hd'
      exact H.ownS d d' o p t hd hd' ht ht'
  · intro d d' o p t hd hd' ht ht'
    by_cases e : d = c <;> by_cases e' : d' = c
    · rw [e, e']
    · simp [set, e] at hd
      subst hd
      simp at ht
      subst ht
      simp only [set_other _ _ _ _ e'] at hd'
      exact absurd ht' (nom d' p hd')
    · simp [set, e'] at hd'
      subst hd'
      simp at ht'
      subst ht'
      simp only [set_other _ _ _ _ e] at hd
      exact absurd ht (nom d o hd)
    · simp only [set_other _ _ _ _ e, set_other _ _ _ _ e'] at hd hd'
      exact H.ownM d d' o p t hd hd' ht ht'
  · intro k e hk
    obtain ⟨w, h1, h2, h3, h4⟩ := H.sess k e hk
    have hne : e.cli ≠ c := fun q => by rw [q, noc] at h3; cases h3
    exact ⟨w, h1, h2, by simp [Ideal.step, set, hne, h3], h4⟩

/-- Moving the `Cli` in place `a` to the empty place `b`, when no session uses either. -/
theorem agree_shift {h : Heap} {n : Notes} {i : Ideal} (H : Agree h n i) (a b : Nat) (o : Obj) (left : Handlers) (ws : List Nat)
    (hab : a ≠ b) (ha : h.clis a = some o) (hb : i.holds b = none)
    (hws : ∀ c, c ∈ ws ↔ (c = b ∧ a ∈ n.whole) ∨ (c ≠ a ∧ c ≠ b ∧ c ∈ n.whole))
    (ua : n.unused a) :
    Agree { h with clis := set (set h.clis a (some ⟨none, none, left⟩)) b (some o) } ⟨ws, n.users⟩
      { i with holds := set (set i.holds a none) b (i.holds a) } := by
  -- what is in a place other than `a` and `b`, with something in it, was there before
  have look : ∀ d p, set (set h.clis a (some ⟨none, none, left⟩)) b (some o) d = some p →
      (d = b ∧ p = o) ∨ (d = a ∧ p = ⟨none, none, left⟩) ∨ (d ≠ a ∧ d ≠ b ∧ h.clis d = some p) := by
    intro d p hd
    by_cases e : d = b
    · simp [set, e] at hd
      exact .inl ⟨e, hd.symm⟩
    · by_cases e' : d = a
      · simp [set, e, e', hab] at hd
        exact .inr (.inl ⟨e', hd.symm⟩)
      · simp [set, e, e'] at hd
        exact .inr (.inr ⟨e', e, hd⟩)
  constructor
  · intro c hc
    rcases (hws c).1 hc with ⟨e, h1⟩ | ⟨h1, h2, h3⟩
    · obtain ⟨w, hw⟩ := H.whole a h1
      exact ⟨w, by simp [set, e, hw]⟩
    · obtain ⟨w, hw⟩ := H.whole c h3
      exact ⟨w, by simp [set, h1, h2, hw]⟩
  · intro c w hc
    by_cases e : c = b
    · simp [set, e] at hc
      have := H.held a w hc
      refine ⟨(hws c).2 (.inl ⟨e, this.1⟩), ?_⟩
      simp only [e, set_same]
      rw [← ha, this.2]
    · by_cases e' : c = a
      · simp [set, e, e', hab] at hc
      · simp [set, e, e'] at hc
        have := H.held c w hc
        exact ⟨(hws c).2 (.inr ⟨e', e, this.1⟩), by simp [set, e, e', this.2]⟩
  · intro d p s hd hp
    rcases look d p hd with ⟨_, e⟩ | ⟨_, e⟩ | ⟨_, _, e⟩
    · exact H.storage a o s ha (e ▸ hp)
    · subst e
      cases hp
    · exact H.storage d p s e hp
  · intro d p s hd hp
    rcases look d p hd with ⟨_, e⟩ | ⟨_, e⟩ | ⟨_, _, e⟩
    · exact H.menu a o s ha (e ▸ hp)
    · subst e
      cases hp
    · exact H.menu d p s e hp
  · intro c d p q s hc hd hp hq
    rcases look c p hc with ⟨e1, e⟩ | ⟨_, e⟩ | ⟨e1, e2, e⟩
    · rcases look d q hd with ⟨f1, f⟩ | ⟨_, f⟩ | ⟨f1, f2, f⟩
      · rw [e1, f1]
      · subst f
        cases hq
      · exact absurd (H.ownS d a q o s f ha hq (e ▸ hp)) f1
    · subst e
      cases hp
    · rcases look d q hd with ⟨f1, f⟩ | ⟨_, f⟩ | ⟨f1, f2, f⟩
      · exact absurd (H.ownS c a p o s e ha hp (f ▸ hq)) e1
      · subst f
        cases hq
      · exact H.ownS c d p q s e f hp hq
  · intro c d p q s hc hd hp hq
    rcases look c p hc with ⟨e1, e⟩ | ⟨_, e⟩ | ⟨e1, e2, e⟩
    · rcases look d q hd with ⟨f1, f⟩ | ⟨_, f⟩ | ⟨f1, f2, f⟩
      · rw [e1, f1]
      · subst f
        cases hq
      · exact absurd (H.ownM d a q o s f ha hq (e ▸ hp)) f1
    · subst e
      cases hp
    · rcases look d q hd with ⟨f1, f⟩ | ⟨_, f⟩ | ⟨f1, f2, f⟩
      · exact absurd (H.ownM c a p o s e ha hp (f ▸ hq)) e1
      · subst f
        cases hq
      · exact H.ownM c d p q s e f hp hq
  · intro k e hk
    obtain ⟨w, h1, h2, h3, h4⟩ := H.sess k e hk
    have na : e.cli ≠ a := fun q => ua k (q ▸ h4)
    have nb : e.cli ≠ b := fun q => by rw [q, hb] at h3; cases h3
    exact ⟨w, h1, h2, by simp [set, na, nb, h3], h4⟩

/-- The storage and the menu of an unused `Cli` can be destroyed, if its place is emptied too. -/
theorem agree_drop {h : Heap} {n : Notes} {i : Ideal} (H : Agree h n i) (b : Nat) (p : Obj) (new : Option Obj)
    (hnew : ∀ q, new = some q → q.storage = none ∧ q.menu = none)
    (hb : h.clis b = some p) (ub : n.unused b) :
    Agree { h.drop p with clis := set h.clis b new } { n with whole := n.whole.filter (· != b) } { i with holds := set i.holds b none } := by
  have look : ∀ d q, set h.clis b new d = some q → (q.storage = none ∧ q.menu = none) ∨ (d ≠ b ∧ h.clis d = some q) := by
    intro d q hd
    by_cases e : d = b
    · simp [set, e] at hd
      exact .inl (hnew q hd)
    · simp [set, e] at hd
      exact .inr ⟨e, hd⟩
  constructor
  · intro c hc
    simp at hc
    obtain ⟨w, hw⟩ := H.whole c hc.1
    exact ⟨w, by simp [set, hc.2, hw]⟩
  · intro c w hc
    by_cases e : c = b
    · simp [set, e] at hc
    · simp [set, e] at hc
      have := H.held c w hc
      exact ⟨by simp [this.1, e], by simp [set, e, this.2]⟩
  · intro d q s hd hq
    rcases look d q hd with e | ⟨e1, e⟩
    · rw [e.1] at hq
      cases hq
    · have := H.storage d q s e hq
      cases hp : p.storage with
      | none => simp [Heap.drop, hp, this]
      | some t =>
        have hne : s ≠ t := fun f => e1 (H.ownS d b q p s e hb hq (f ▸ hp))
        simp [Heap.drop, hp, set, hne, this]
  · intro d q s hd hq
    rcases look d q hd with e | ⟨e1, e⟩
    · rw [e.2] at hq
      cases hq
    · have := H.menu d q s e hq
      cases hp : p.menu with
      | none => simp [Heap.drop, hp, this]
      | some t =>
        have hne : s ≠ t := fun f => e1 (H.ownM d b q p s e hb hq (f ▸ hp))
        simp [Heap.drop, hp, set, hne, this]
  · intro c d q q' s hc hd hq hq'
    rcases look c q hc with e | ⟨e1, e⟩
    · rw [e.1] at hq
      cases hq
    · rcases look d q' hd with f | ⟨f1, f⟩
      · rw [f.1] at hq'
        cases hq'
      · exact H.ownS c d q q' s e f hq hq'
  · intro c d q q' s hc hd hq hq'
    rcases look c q hc with e | ⟨e1, e⟩
    · rw [e.2] at hq
      cases hq
    · rcases look d q' hd with f | ⟨f1, f⟩
      · rw [f.2] at hq'
        cases hq'
      · exact H.ownM c d q q' s e f hq hq'
  · intro k e hk
    obtain ⟨w, h1, h2, h3, h4⟩ := H.sess k e hk
    have nb : e.cli ≠ b := fun q => ub k (q ▸ h4)
    exact ⟨w, h1, h2, by simp [set, nb, h3], h4⟩

/-- A `Cli` that is assigned to itself. -/
theorem agree_self {h : Heap} {n : Notes} {i : Ideal} (H : Agree h n i) (a : Nat) (o : Obj) (left : Handlers)
    (ha : h.clis a = some o) (ua : n.unused a) :
    Agree { h with clis := set h.clis a (some { o with handlers := left }) } { n with whole := n.whole.filter (· != a) } { i with holds := set i.holds a none } := by
  have look : ∀ d q, set h.clis a (some { o with handlers := left }) d = some q → ∃ q', h.clis d = some q' ∧ q'.storage = q.storage ∧ q'.menu = q.menu := by
    intro d q hd
    by_cases e : d = a
    · simp [set, e] at hd
      exact ⟨o, by rw [e, ha], by rw [← hd], by rw [← hd]⟩
    · simp [set, e] at hd
      exact ⟨q, hd, rfl, rfl⟩
  constructor
  · intro c hc
    simp at hc
    obtain ⟨w, hw⟩ := H.whole c hc.1
    exact ⟨w, by simp [set, hc.2, hw]⟩
  · intro c w hc
    by_cases e : c = a
    · simp [set, e] at hc
    · simp [set, e] at hc
      have := H.held c w hc
      exact ⟨by simp [this.1, e], by simp [set, e, this.2]⟩
  · intro d q s hd hq
    obtain ⟨q', h1, h2, _⟩ := look d q hd
    exact H.storage d q' s h1 (h2.trans hq)
  · intro d q s hd hq
    obtain ⟨q', h1, _, h2⟩ := look d q hd
    exact H.menu d q' s h1 (h2.trans hq)
  · intro c d q r s hc hd hq hr
    obtain ⟨q', h1, h2, _⟩ := look c q hc
    obtain ⟨r', g1, g2, _⟩ := look d r hd
    exact H.ownS c d q' r' s h1 g1 (h2.trans hq) (g2.trans hr)
  · intro c d q r s hc hd hq hr
    obtain ⟨q', h1, _, h2⟩ := look c q hc
    obtain ⟨r', g1, _, g2⟩ := look d r hd
    exact H.ownM c d q' r' s h1 g1 (h2.trans hq) (g2.trans hr)
  · intro k e hk
    obtain ⟨w, h1, h2, h3, h4⟩ := H.sess k e hk
    have nb : e.cli ≠ a := fun q => ua k (q ▸ h4)
    exact ⟨w, h1, h2, by simp [set, nb, h3], h4⟩

/-- A session is entered, or has one more line. -/
theorem agree_typed {h : Heap} {n : Notes} {i : Ideal} (H : Agree h n i) (k : Nat) (e : Sess) (w : Whole) (users : List (Nat × Nat))
    (hc : e.current = some w.menu) (hh : i.holds e.cli = some w) (hu : (k, e.cli) ∈ users) (hs : ∀ u, u ∈ n.users → u ∈ users) :
    Agree { h with sessions := set h.sessions k (some e) } { n with users := users } { i with sess := set i.sess k (some (w, e.typed)) } := by
  refine ⟨H.whole, H.held, H.storage, H.menu, H.ownS, H.ownM, ?_⟩
  intro j f hf
  by_cases q : j = k
  · simp [set, q] at hf
    subst hf
    exact ⟨w, by simp [set, q], hc, hh, q ▸ hu⟩
  · simp [set, q] at hf
    obtain ⟨w, h1, h2, h3, h4⟩ := H.sess j f hf
    exact ⟨w, by simp [set, q, h1], h2, h3, hs _ h4⟩

/-- The storage of a `Cli` gets more lines. -/
theorem agree_stored {h : Heap} {n : Notes} {i : Ideal} (H : Agree h n i) (s : Nat) (lines : List Str) :
    Agree { h with storages := set h.storages s (some lines) } n { i with contents := set i.contents s lines } := by
  refine ⟨H.whole, H.held, ?_, H.menu, H.ownS, H.ownM, H.sess⟩
  intro c o t hc ho
  by_cases q : t = s
  · simp [set, q]
  · simp [set, q, H.storage c o t hc ho]

theorem agree_step {h : Heap} {n : Notes} {i : Ideal} (H : Agree h n i) (op : Op) (ok : n.allows op) :
    step h op = .impossible ∨ ∃ h', step h op = .ok (i.step op).1 h' ∧ Agree h' (n.after op) (i.step op).2 := by
  cases op with
  | make c s m hs =>
    by_cases q : ((h.clis c).isSome || (h.storages s).isSome || h.menus m) = true
    · exact .inl (by simp only [step, q, if_true])
    · refine .inr ⟨_, by simp only [step, q]; rfl, ?_⟩
      simp at q
      exact agree_make H c s m hs q.1.1 q.1.2 q.2
  | construct a b left =>
    cases ha : h.clis a with
    | none => exact .inl (by simp [step, ha])
    | some o =>
      cases hb : h.clis b with
      | some p => exact .inl (by simp [step, ha, hb])
      | none =>
        refine .inr ⟨_, by simp [step, ha, hb]; exact ⟨rfl, rfl⟩, ?_⟩
        have hab : a ≠ b := fun e => by rw [e, hb] at ha; cases ha
        have hi : i.holds b = none := by
          cases hh : i.holds b with
          | none => rfl
          | some w => rw [(H.held b w hh).2] at hb; cases hb
        have hw : b ∉ n.whole := fun e => by
          obtain ⟨w, hw⟩ := H.whole b e
          rw [hi] at hw
          cases hw
        refine agree_shift H a b o left _ hab ha hi ?_ ok
        intro c
        by_cases q : a ∈ n.whole
        · simp only [q, if_true, and_true, List.mem_cons, List.mem_filter]
          constructor
          · rintro (e | ⟨e1, e2⟩)
            · exact .inl e
            · simp at e2
              exact .inr ⟨e2, fun e => hw (e ▸ e1), e1⟩
          · rintro (e | ⟨e1, e2, e3⟩)
            · exact .inl e
            · exact .inr ⟨e3, by simpa using e1⟩
        · simp only [q, if_false, and_false, false_or]
          exact ⟨fun e => ⟨fun f => q (f ▸ e), fun f => hw (f ▸ e), e⟩, fun e => e.2.2⟩
  | assign a b left =>
    cases ha : h.clis a with
    | none => exact .inl (by simp [step, ha])
    | some o =>
      cases hb : h.clis b with
      | none => exact .inl (by simp [step, ha, hb])
      | some p =>
        by_cases hab : a = b
        · refine .inr ⟨_, by simp [step, ha, hb, hab.symm]; exact ⟨rfl, rfl⟩, ?_⟩
          subst hab
          simp only [Notes.after, if_true, Ideal.step]
          exact agree_self H a o left ha ok.1
        · refine .inr ⟨_, by simp [step, ha, hb, hab]; exact ⟨rfl, rfl⟩, ?_⟩
          have D := agree_drop H b p none (by simp) hb ok.2
          have ha' : set h.clis b none a = some o := by simp [set, hab, ha]
          have S := agree_shift D a b o left (n.after (.assign a b left)).whole hab ha' (by simp [set]) (by
            intro c
            simp only [Notes.after, hab, if_false]
            by_cases q : a ∈ n.whole
            · simp only [q, if_true, List.mem_cons, List.mem_filter, true_and]
              constructor
              · rintro (e | ⟨e1, e2⟩)
                · exact .inl ⟨e, by simpa using hab⟩
                · simp at e2
                  by_cases f : c = b
                  · exact .inl ⟨f, by simpa using hab⟩
                  · exact .inr ⟨e2, f, e1, by simpa using f⟩
              · rintro (e | ⟨e1, e2, e3⟩)
                · exact .inl e.1
                · exact .inr ⟨e3.1, by simpa using e1⟩
            · simp only [q, if_false, List.mem_filter, false_and, and_false, false_or]
              constructor
              · rintro ⟨e1, e2⟩
                simp at e2
                exact ⟨fun f => q (f ▸ e1), e2, e1, by simpa using e2⟩
              · rintro ⟨_, _, e⟩
                exact e) ok.1
          have e1 : set (set (set h.clis b none) a (some ⟨none, none, left⟩)) b (some o) = set (set h.clis a (some ⟨none, none, left⟩)) b (some o) := by
            funext c
            by_cases q : c = b <;> simp [set, q]
          have e2 : set (set (set i.holds b none) a none) b (set i.holds b none a) = set (set i.holds a none) b (i.holds a) := by
            funext c
            by_cases q : c = b <;> simp [set, q, hab]
          simp only [e1, e2] at S
          simp only [Ideal.step, hab, if_false]
          exact S
  | destroy c =>
    cases hc : h.clis c with
    | none => exact .inl (by simp [step, hc])
    | some o =>
      exact .inr ⟨_, by simp [step, hc]; exact ⟨rfl, rfl⟩, agree_drop H c o none (by simp) hc ok⟩
  | enter k c =>
    cases hk : h.sessions k with
    | some e => exact .inl (by simp [step, hk])
    | none =>
      obtain ⟨w, hw⟩ := H.whole c ok
      have hc := (H.held c w hw).2
      have hs := H.storage c _ w.storage hc rfl
      refine .inr ⟨_, by simp [step, hk, hc, hs, Ideal.step, hw]; rfl, ?_⟩
      simp only [Ideal.step, hw, Notes.after]
      exact agree_typed H k ⟨c, some w.menu, i.contents w.storage, []⟩ w _ rfl hw (by simp) (fun u hu => List.mem_cons_of_mem _ hu)
  | run k line =>
    cases hk : h.sessions k with
    | none => exact .inl (by simp [step, hk])
    | some e =>
      obtain ⟨w, h1, h2, h3, h4⟩ := H.sess k e hk
      have hc := (H.held e.cli w h3).2
      have hm := H.menu e.cli _ w.menu hc rfl
      refine .inr ⟨_, by simp [step, hk, h2, hm, Ideal.step, h1]; rfl, ?_⟩
      simp only [Ideal.step, h1]
      exact agree_typed H k { e with current := some w.menu, typed := e.typed ++ [line] } w _ rfl h3 h4 (fun u hu => hu)
  | mistake k line =>
    cases hk : h.sessions k with
    | none => exact .inl (by simp [step, hk])
    | some e =>
      obtain ⟨w, h1, h2, h3, h4⟩ := H.sess k e hk
      have hc := (H.held e.cli w h3).2
      have hm := H.menu e.cli _ w.menu hc rfl
      refine .inr ⟨_, by simp [step, hk, h2, hm, hc, Ideal.step, h1]; exact ⟨rfl, rfl⟩, ?_⟩
      simp only [Ideal.step, h1]
      exact agree_typed H k { e with current := some w.menu, typed := e.typed ++ [line] } w _ rfl h3 h4 (fun u hu => hu)
  | exit k =>
    cases hk : h.sessions k with
    | none => exact .inl (by simp [step, hk])
    | some e =>
      obtain ⟨w, h1, h2, h3, h4⟩ := H.sess k e hk
      have hc := (H.held e.cli w h3).2
      have hs := H.storage e.cli _ w.storage hc rfl
      refine .inr ⟨_, by simp [step, hk, hc, hs, Ideal.step, h1]; rfl, ?_⟩
      simp only [Ideal.step, h1]
      exact agree_stored (agree_typed H k { e with typed := e.typed ++ [bs!"exit"] } w n.users h2 h3 h4 (fun u hu => hu)) w.storage _
  | close k =>
    cases hk : h.sessions k with
    | none => exact .inl (by simp [step, hk])
    | some e =>
      refine .inr ⟨_, by simp [step, hk]; exact ⟨rfl, rfl⟩, ?_⟩
      refine ⟨H.whole, H.held, H.storage, H.menu, H.ownS, H.ownM, ?_⟩
      intro j f hf
      by_cases q : j = k
      · simp [set, q] at hf
      · simp [set, q] at hf
        obtain ⟨w, h1, h2, h3, h4⟩ := H.sess j f hf
        exact ⟨w, by simp [Ideal.step, set, q, h1], h2, h3, by simp [Notes.after, h4, q]⟩

theorem agree_exec (ops : List Op) : ∀ {h : Heap} {n : Notes} {i : Ideal}, Agree h n i → n.Careful ops →
    exec h ops = .impossible ∨ ∃ h', exec h ops = .ok (i.exec ops) h' := by
  induction ops with
  | nil => intro h n i _ _; exact .inr ⟨h, rfl⟩
  | cons op ops ih =>
    intro h n i H hc
    rcases agree_step H op hc.1 with e | ⟨h', e, H'⟩
    · exact .inl (by simp [exec, e])
    · rcases ih H' hc.2 with f | ⟨h'', f⟩
      · exact .inl (by simp [exec, e, f])
      · exact .inr ⟨h'', by simp [exec, e, f, Ideal.exec]⟩

/-! ## C104 -/

/-- **C104** (partial: for careful programs). A `Cli` can be moved as long as it has no session: for all programs that move, assign and destroy `Cli` objects only when no session uses them, and make sessions only on objects that have
    not been moved away, nothing undefined happens, and everything outside the library - calls of handlers, commands executed, lines loaded from and stored in the storages - is as if each session held what the `Cli` was made of. What is
    missing: `C104_session_refuted`. -/
theorem C104_careful_partial (ops : List Op) (hc : Notes.Careful ⟨[], []⟩ ops) :
    exec .empty ops = .impossible ∨ ∃ h, exec .empty ops = .ok (Ideal.empty.exec ops) h :=
  agree_exec ops agree_empty hc

/-- The operation makes a `Cli` in place `a`, or moves one there. -/
def Op.fills (a : Nat) : Op → Bool
  | .make c _ _ _ => c == a
  | .construct _ b _ => b == a
  | .assign _ b _ => b == a
  | _ => false

/-- The session `k` refers to the place `a`, where there is no `Cli`, or one without a storage. -/
def Doomed (a k : Nat) (h : Heap) : Prop := (∀ o, h.clis a = some o → o.storage = none) ∧ ∃ e, h.sessions k = some e ∧ e.cli = a

theorem doomed_clis {a : Nat} {h h1 : Heap} {op : Op} {ev : List Event} (hf : op.fills a = false)
    (hs : ∀ o, h.clis a = some o → o.storage = none) (hst : step h op = .ok ev h1) : ∀ o, h1.clis a = some o → o.storage = none := by
  intro o ho
  cases op with
  | make c s m hh =>
    have hne : a ≠ c := fun e => by simp [Op.fills, e] at hf
    simp only [step] at hst
    split at hst
    · cases hst
    · cases hst
      simp [set, hne] at ho
      exact hs o ho
  | construct c d l =>
    have hne : a ≠ d := fun e => by simp [Op.fills, e] at hf
    simp only [step] at hst
    repeat' split at hst
    all_goals cases hst
    by_cases q : a = c
    · subst q
      simp [set, hne] at ho
      subst ho
      rfl
    · simp [set, hne, q] at ho
      exact hs o ho
  | assign c d l =>
    have hne : a ≠ d := fun e => by simp [Op.fills, e] at hf
    simp only [step] at hst
    repeat' split at hst
    all_goals cases hst
    · rename_i q
      simp [set, q, hne] at ho
      exact hs o ho
    · by_cases q : a = c
      · subst q
        simp [set, hne] at ho
        subst ho
        rfl
      · simp [set, hne, q, Heap.drop] at ho
        exact hs o ho
  | destroy c =>
    simp only [step] at hst
    split at hst
    · cases hst
    · cases hst
      by_cases q : a = c
      · simp [set, q] at ho
      · simp [set, q, Heap.drop] at ho
        exact hs o ho
  | enter j c =>
    simp only [step] at hst
    repeat' split at hst
    all_goals cases hst
    exact hs o ho
  | run j l =>
    simp only [step] at hst
    repeat' split at hst
    all_goals cases hst
    exact hs o ho
  | mistake j l =>
    simp only [step] at hst
    repeat' split at hst
    all_goals cases hst
    all_goals exact hs o ho
  | exit j =>
    simp only [step] at hst
    repeat' split at hst
    all_goals cases hst
    exact hs o ho
  | close j =>
    simp only [step] at hst
    repeat' split at hst
    all_goals cases hst
    exact hs o ho

theorem doomed_sess {a k : Nat} {h h1 : Heap} {op : Op} {ev : List Event} (hc : op ≠ .close k)
    (hs : ∃ e, h.sessions k = some e ∧ e.cli = a) (hst : step h op = .ok ev h1) : ∃ e, h1.sessions k = some e ∧ e.cli = a := by
  obtain ⟨e, he, hea⟩ := hs
  cases op with
  | make c s m hh =>
    simp only [step] at hst
    repeat' split at hst
    all_goals cases hst
    exact ⟨e, he, hea⟩
  | construct c d l =>
    simp only [step] at hst
    repeat' split at hst
    all_goals cases hst
    exact ⟨e, he, hea⟩
  | assign c d l =>
    simp only [step] at hst
    repeat' split at hst
    all_goals cases hst
    all_goals exact ⟨e, he, hea⟩
  | destroy c =>
    simp only [step] at hst
    repeat' split at hst
    all_goals cases hst
    exact ⟨e, he, hea⟩
  | enter j c =>
    simp only [step] at hst
    have hne : (h.sessions j).isSome = true ∨ k ≠ j := by
      by_cases q : k = j
      · exact .inl (by rw [← q, he]; rfl)
      · exact .inr q
    rcases hne with q | q
    · simp [q] at hst
    · repeat' split at hst
      all_goals cases hst
      exact ⟨e, by simp [set, q, he], hea⟩
  | run j l =>
    by_cases q : k = j
    · subst q
      simp only [step, he] at hst
      repeat' split at hst
      all_goals cases hst
      exact ⟨{ e with typed := _ }, set_same _ _ _, hea⟩
    · simp only [step] at hst
      repeat' split at hst
      all_goals cases hst
      exact ⟨e, by simp [set, q, he], hea⟩
  | mistake j l =>
    by_cases q : k = j
    · subst q
      simp only [step, he] at hst
      repeat' split at hst
      all_goals cases hst
      all_goals exact ⟨{ e with typed := _ }, set_same _ _ _, hea⟩
    · simp only [step] at hst
      repeat' split at hst
      all_goals cases hst
      all_goals exact ⟨e, by simp [set, q, he], hea⟩
  | exit j =>
    by_cases q : k = j
    · subst q
      simp only [step, he] at hst
      repeat' split at hst
      all_goals cases hst
      exact ⟨{ e with typed := _ }, set_same _ _ _, hea⟩
    · simp only [step] at hst
      repeat' split at hst
      all_goals cases hst
      exact ⟨e, by simp [set, q, he], hea⟩
  | close j =>
    have q : k ≠ j := fun q => hc (by rw [q])
    simp only [step] at hst
    repeat' split at hst
    all_goals cases hst
    exact ⟨e, by simp [set, q, he], hea⟩

theorem doomed_exec (a k : Nat) (ops : List Op) : ∀ {h : Heap}, (∀ op ∈ ops, op ≠ .close k ∧ op.fills a = false) → Doomed a k h →
    ∀ ev h', exec h ops = .ok ev h' → Doomed a k h' := by
  induction ops with
  | nil =>
    intro h _ hd ev h' hx
    simp [exec] at hx
    exact hx.2 ▸ hd
  | cons op ops ih =>
    intro h hops hd ev h' hx
    obtain ⟨nc, nf⟩ := hops op List.mem_cons_self
    cases hst : step h op with
    | impossible => simp [exec, hst] at hx
    | ub why => simp [exec, hst] at hx
    | ok ev1 h1 =>
      simp only [exec, hst] at hx
      cases hx1 : exec h1 ops with
      | impossible => simp [hx1] at hx
      | ub why => simp [hx1] at hx
      | ok ev2 h2 =>
        simp [hx1] at hx
        exact hx.2 ▸ ih (fun o ho => hops o (List.mem_cons_of_mem _ ho)) ⟨doomed_clis nf hd.1 hst, doomed_sess nc hd.2 hst⟩ ev2 h2 hx1

/-- A session on a `Cli` that is moved is doomed: whatever the program does afterwards - as long as it does not put another `Cli` in the place of the one that was moved, or destroy the session -, the command `exit` of this session is
    undefined behaviour. -/
theorem C104_doomed (h : Heap) (a b k : Nat) (left : Handlers) (e : Sess) (ev ev' : List Event) (h1 h2 : Heap) (ops : List Op)
    (hs : h.sessions k = some e) (ha : e.cli = a) (hm : step h (.construct a b left) = .ok ev h1)
    (hops : ∀ op ∈ ops, op ≠ .close k ∧ op.fills a = false) (hx : exec h1 ops = .ok ev' h2) :
    ∃ why, step h2 (.exit k) = .ub why := by
  have hd : Doomed a k h1 := by
    simp only [step] at hm
    repeat' split at hm
    all_goals cases hm
    rename_i o ho hb
    have hab : a ≠ b := fun q => by rw [← q, ho] at hb; simp at hb
    exact ⟨fun q hq => by simp [set, hab] at hq; rw [← hq], e, hs, ha⟩
  obtain ⟨hs2, e2, he2, hea2⟩ := doomed_exec a k ops hops hd ev' h2 hx
  simp only [step, he2, hea2]
  cases hc : h2.clis a with
  | none => exact ⟨_, rfl⟩
  | some o => exact ⟨.null, by simp [hs2 o hc]⟩

/-- Its commands still work, though: moving a `Cli` leaves the menus where they are. -/
theorem C104_menus (h : Heap) (a b k : Nat) (left : Handlers) (line : Str) (ev ev' : List Event) (h1 h2 : Heap)
    (hm : step h (.construct a b left) = .ok ev h1) (hr : step h (.run k line) = .ok ev' h2) : ∃ h3, step h1 (.run k line) = .ok ev' h3 := by
  simp only [step] at hm
  repeat' split at hm
  all_goals cases hm
  simp only [step] at hr ⊢
  repeat' split at hr
  all_goals cases hr
  rename_i e he _ m hm hh
  exact ⟨_, by simp [hm, hh]; rfl⟩

/-- Assigning to a `Cli` destroys its menus; a session that is in one of them has a dangling pointer then. -/
theorem C104_assigned (h : Heap) (a b k m : Nat) (left : Handlers) (e : Sess) (p : Obj) (line : Str) (ev : List Event) (h1 : Heap)
    (hab : a ≠ b) (hb : h.clis b = some p) (hp : p.menu = some m) (hs : h.sessions k = some e) (hc : e.current = some m)
    (hm : step h (.assign a b left) = .ok ev h1) : step h1 (.run k line) = .ub .dangling := by
  simp only [step, hb, hab, if_false] at hm
  split at hm
  · rename_i o p' ho hp'
    cases hp'
    cases hm
    simp [step, hs, hc, Heap.drop, hp, set]
  · cases hm

/-- Functions for the examples: an enter action and an exit action. -/
def funs : Handlers := ⟨some 1, some 2, none, none⟩

/-- **C104 is false.** A `Cli` is made, a session is started, the `Cli` is moved (a `std::vector<Cli>` that grows does this), and the user types `exit`: the history is stored through a null pointer. -/
theorem C104_session_refuted :
    ¬ ∀ ops : List Op, exec .empty ops = .impossible ∨ ∃ h, exec .empty ops = .ok (Ideal.empty.exec ops) h := by
  intro H
  rcases H [.make 0 0 0 funs, .enter 5 0, .construct 0 1 ⟨none, none, none, none⟩, .exit 5] with h | ⟨h, hh⟩
  · have : exec .empty [.make 0 0 0 funs, .enter 5 0, .construct 0 1 ⟨none, none, none, none⟩, .exit 5] = .ub .null := rfl
    rw [this] at h
    cases h
  · have : exec .empty [.make 0 0 0 funs, .enter 5 0, .construct 0 1 ⟨none, none, none, none⟩, .exit 5] = .ub .null := rfl
    rw [this] at hh
    cases hh

/-- No undefined behaviour, but the wrong function: after the move of its `Cli`, a session says "wrong command" although a handler was set (the functions of the object that was moved are empty, in most implementations). -/
theorem C104_handler_refuted :
    ∃ (ops : List Op) (ev : List Event) (h : Heap), exec .empty ops = .ok ev h ∧ ev ≠ Ideal.empty.exec ops ∧
      Event.wrong 5 bs!"x" ∈ ev ∧ Event.called 9 5 ∈ Ideal.empty.exec ops :=
  ⟨[.make 0 0 0 ⟨none, none, none, some 9⟩, .enter 5 0, .construct 0 1 ⟨none, none, none, none⟩, .mistake 5 bs!"x"], _, _, rfl, by decide, by decide, by decide⟩

/-- Non-vacuity: a `Cli` is made in a function, returned (moved), assigned over another one that existed before, and has two sessions; the second one gets what the first one stored. -/
def prudent : List Op :=
  [.make 0 0 0 ⟨none, none, none, some 9⟩, .make 1 1 1 funs, .construct 1 2 ⟨none, none, none, none⟩, .destroy 1, .assign 2 0 funs, .destroy 2,
    .enter 5 0, .run 5 bs!"go", .mistake 5 bs!"og", .exit 5, .close 5, .enter 6 0]

example : Notes.Careful ⟨[], []⟩ prudent := by simp [Notes.Careful, prudent, Notes.allows, Notes.after, Notes.unused]

example : (Ideal.empty.exec prudent) =
    [.loaded 1 5 [], .called 1 5, .ran 1 5 bs!"go", .wrong 5 bs!"og", .called 2 5, .stored 1 5 [bs!"go", bs!"og", bs!"exit"],
      .loaded 1 6 [bs!"go", bs!"og", bs!"exit"], .called 1 6] := by decide

example : ∃ h, exec .empty prudent = .ok (Ideal.empty.exec prudent) h := ⟨_, rfl⟩

/-- Non-vacuity of `C104_doomed`: other things can be done in between. -/
example : ∃ ev h, exec .empty [.make 0 0 0 funs, .enter 5 0, .construct 0 1 funs, .run 5 bs!"go", .enter 6 1, .exit 6] = .ok ev h ∧ step h (.exit 5) = .ub .null :=
  ⟨_, _, rfl, rfl⟩

/-- Non-vacuity of `C104_assigned`. -/
example : ∃ ev h, exec .empty [.make 0 0 0 funs, .make 1 1 1 funs, .enter 5 0, .assign 1 0 funs] = .ok ev h ∧ step h (.run 5 bs!"go") = .ub .dangling :=
  ⟨_, _, rfl, rfl⟩

/-! ### What a program can do at all -/

/-- The names in use: places where there is a `Cli`, storages and menus that have ever been made, sessions. -/
structure Names where
  places : List Nat
  storages : List Nat
  menus : List Nat
  sessions : List Nat

/-- What a program can express: new objects get new names, and only objects that exist are named. -/
def Names.can (n : Names) : Op → Prop
  | .make c s m _ => c ∉ n.places ∧ s ∉ n.storages ∧ m ∉ n.menus
  | .construct a b _ => a ∈ n.places ∧ b ∉ n.places
  | .assign a b _ => a ∈ n.places ∧ b ∈ n.places
  | .destroy c => c ∈ n.places
  | .enter k _ => k ∉ n.sessions
  | .run k _ => k ∈ n.sessions
  | .mistake k _ => k ∈ n.sessions
  | .exit k => k ∈ n.sessions
  | .close k => k ∈ n.sessions

/-- The names after an operation. -/
def Names.after (n : Names) : Op → Names
  | .make c s m _ => { n with places := c :: n.places, storages := s :: n.storages, menus := m :: n.menus }
  | .construct _ b _ => { n with places := b :: n.places }
  | .destroy c => { n with places := n.places.filter (· != c) }
  | .enter k _ => { n with sessions := k :: n.sessions }
  | .close k => { n with sessions := n.sessions.filter (· != k) }
  | _ => n

/-- A program that names only what exists. -/
def Names.Sensible (n : Names) : List Op → Prop
  | [] => True
  | op :: ops => n.can op ∧ (n.after op).Sensible ops

/-- The names are those of the objects that exist. -/
structure Named (h : Heap) (n : Names) : Prop where
  places : ∀ c, c ∈ n.places ↔ (h.clis c).isSome = true
  storages : ∀ s, (h.storages s).isSome = true → s ∈ n.storages
  menus : ∀ m, h.menus m = true → m ∈ n.menus
  sessions : ∀ k, k ∈ n.sessions ↔ (h.sessions k).isSome = true

theorem drop_named {h : Heap} {n : Names} (H : Named h n) (o : Obj) : Named (h.drop o) n := by
  refine ⟨H.places, fun s hs => ?_, fun m hm => ?_, H.sessions⟩
  · unfold Heap.drop at hs
    cases ho : o.storage with
    | none => rw [ho] at hs; exact H.storages s hs
    | some t =>
      rw [ho] at hs
      simp only [set] at hs
      split at hs
      · cases hs
      · exact H.storages s hs
  · unfold Heap.drop at hm
    cases ho : o.menu with
    | none => rw [ho] at hm; exact H.menus m hm
    | some t =>
      rw [ho] at hm
      simp only [set] at hm
      split at hm
      · cases hm
      · exact H.menus m hm

theorem named_step {h : Heap} {n : Names} (H : Named h n) (op : Op) (hc : n.can op) : step h op ≠ .impossible ∧ ∀ ev h', step h op = .ok ev h' → Named h' (n.after op) := by
  have live : ∀ k, k ∈ n.sessions → ∃ e, h.sessions k = some e := fun k hk => Option.isSome_iff_exists.1 ((H.sessions k).1 hk)
  have there : ∀ c, c ∈ n.places → ∃ e, h.clis c = some e := fun k hk => Option.isSome_iff_exists.1 ((H.places k).1 hk)
  have gone : ∀ c, c ∉ n.places → h.clis c = none := fun c hk => by
    cases e : h.clis c with
    | none => rfl
    | some o => exact absurd ((H.places c).2 (by rw [e]; rfl)) hk
  have upd : ∀ k e e', h.sessions k = some e → ∀ j, j ∈ n.sessions ↔ (set h.sessions k (some e') j).isSome = true := fun k e e' he j => by
    rw [H.sessions j]
    unfold set
    split
    · next hj => rw [hj, he]; simp
    · rfl
  cases op with
  | make c s m hs =>
    obtain ⟨h1, h2, h3⟩ := hc
    have e2 : (h.storages s).isSome = false := by
      cases e : (h.storages s).isSome with
      | false => rfl
      | true => exact absurd (H.storages s e) h2
    have e3 : h.menus m = false := by
      cases e : h.menus m with
      | false => rfl
      | true => exact absurd (H.menus m e) h3
    simp only [step, gone c h1, e2, e3, Option.isSome_none, Bool.or_self, Bool.false_eq_true, if_false, ne_eq, reduceCtorEq, not_false_eq_true, true_and]
    intro ev h' e
    cases e
    refine ⟨fun d => ?_, fun t ht => ?_, fun t ht => ?_, H.sessions⟩
    · by_cases hd : d = c
      · subst hd; simp [Names.after, set_same]
      · simp [Names.after, set_other, hd, H.places d]
    · by_cases hd : t = s
      · subst hd; simp [Names.after]
      · rw [show ({ h with clis := set h.clis c (some ⟨some s, some m, hs⟩), storages := set h.storages s (some []), menus := set h.menus m true } : Heap).storages t = h.storages t from set_other _ _ _ _ hd] at ht
        simp [Names.after, H.storages t ht]
    · by_cases hd : t = m
      · subst hd; simp [Names.after]
      · rw [show ({ h with clis := set h.clis c (some ⟨some s, some m, hs⟩), storages := set h.storages s (some []), menus := set h.menus m true } : Heap).menus t = h.menus t from set_other _ _ _ _ hd] at ht
        simp [Names.after, H.menus t ht]
  | construct a b l =>
    obtain ⟨o, ho⟩ := there a hc.1
    have hb := gone b hc.2
    simp only [step, ho, hb, Option.isSome_none, Bool.false_eq_true, if_false, ne_eq, reduceCtorEq, not_false_eq_true, true_and]
    intro ev h' e
    cases e
    refine ⟨fun d => ?_, H.storages, H.menus, H.sessions⟩
    by_cases hd : d = b
    · subst hd; simp [Names.after, set_same]
    · by_cases ha : d = a
      · subst ha; simp [Names.after, set_same, set_other _ _ _ _ hd, hc.1]
      · simp [Names.after, set_other, hd, ha, H.places d]
  | assign a b l =>
    obtain ⟨o, ho⟩ := there a hc.1
    obtain ⟨p, hp⟩ := there b hc.2
    simp only [step, ho, hp]
    split
    · refine ⟨by simp, fun ev h' e => ?_⟩
      cases e
      refine ⟨fun d => ?_, H.storages, H.menus, H.sessions⟩
      by_cases hd : d = a
      · subst hd; simp [Names.after, set_same, hc.1]
      · simp [Names.after, set_other, hd, H.places d]
    · refine ⟨by simp, fun ev h' e => ?_⟩
      cases e
      have D := drop_named H p
      refine ⟨fun d => ?_, D.storages, D.menus, D.sessions⟩
      by_cases hd : d = b
      · subst hd; simp [Names.after, set_same, hc.2]
      · by_cases ha : d = a
        · subst ha; simp [Names.after, set_same, set_other _ _ _ _ hd, hc.1]
        · simp [Names.after, set_other, hd, ha, H.places d, Heap.drop]
  | destroy c =>
    obtain ⟨o, ho⟩ := there c hc
    simp only [step, ho]
    refine ⟨by simp, fun ev h' e => ?_⟩
    cases e
    have D := drop_named H o
    refine ⟨fun d => ?_, D.storages, D.menus, D.sessions⟩
    by_cases hd : d = c
    · subst hd; simp [Names.after, set_same]
    · simp [Names.after, set_other, hd, H.places d, Heap.drop]
  | enter k c =>
    have hk : (h.sessions k).isSome = false := by
      cases e : (h.sessions k).isSome with
      | false => rfl
      | true => exact absurd ((H.sessions k).2 e) hc
    simp only [step, hk, Bool.false_eq_true, if_false]
    split
    · simp
    · split
      · simp
      · split
        · simp
        · refine ⟨by simp, fun ev h' e => ?_⟩
          cases e
          refine ⟨H.places, H.storages, H.menus, fun d => ?_⟩
          by_cases hd : d = k
          · subst hd; simp [Names.after, set_same]
          · simp [Names.after, set_other, hd, H.sessions d]
  | run k line =>
    obtain ⟨x, hx⟩ := live k hc
    simp only [step, hx]
    split
    · simp
    · split
      · refine ⟨by simp, fun ev h' e => ?_⟩
        cases e
        exact ⟨H.places, H.storages, H.menus, upd k x _ hx⟩
      · simp
  | mistake k line =>
    obtain ⟨x, hx⟩ := live k hc
    simp only [step, hx]
    split
    · simp
    · split
      · split
        · simp
        · refine ⟨by simp, fun ev h' e => ?_⟩
          cases e
          exact ⟨H.places, H.storages, H.menus, upd k x _ hx⟩
      · simp
  | exit k =>
    obtain ⟨x, hx⟩ := live k hc
    simp only [step, hx]
    split
    · simp
    · split
      · simp
      · split
        · simp
        · next s _ _ lines hl =>
          refine ⟨by simp, fun ev h' e => ?_⟩
          cases e
          refine ⟨H.places, fun t ht => ?_, H.menus, upd k x _ hx⟩
          by_cases hd : t = s
          · subst hd; exact H.storages t (by rw [hl]; rfl)
          · exact H.storages t (by rw [← set_other h.storages s t (some _) hd]; exact ht)
  | close k =>
    obtain ⟨x, hx⟩ := live k hc
    simp only [step, hx]
    refine ⟨by simp, fun ev h' e => ?_⟩
    cases e
    refine ⟨H.places, H.storages, H.menus, fun d => ?_⟩
    by_cases hd : d = k
    · subst hd; simp [Names.after, set_same]
    · simp [Names.after, set_other, hd, H.sessions d]

theorem named_exec (ops : List Op) : ∀ {h : Heap} {n : Names}, Named h n → n.Sensible ops → exec h ops ≠ .impossible := by
  induction ops with
  | nil => intro h n _ _; simp [exec]
  | cons op ops ih =>
    intro h n H hc
    obtain ⟨a, b⟩ := named_step H op hc.1
    simp only [exec]
    cases e : step h op with
    | impossible => exact absurd e a
    | ub y => simp
    | ok ev h' =>
      have := ih (b ev h' e) hc.2
      cases e2 : exec h' ops with
      | impossible => exact absurd e2 this
      | ub y => simp [e2]
      | ok ev2 h2 => simp [e2]

/-- A program that names only what exists is possible: it runs to its end, or something undefined happens. If it is careful as well, it runs to its end, and what happens is what has to happen. -/
theorem C104_possible (ops : List Op) (hs : Names.Sensible ⟨[], [], [], []⟩ ops) :
    exec .empty ops ≠ .impossible ∧ (Notes.Careful ⟨[], []⟩ ops → ∃ h, exec .empty ops = .ok (Ideal.empty.exec ops) h) := by
  have a : exec .empty ops ≠ .impossible := named_exec ops ⟨by simp [Heap.empty], by simp [Heap.empty], by simp [Heap.empty], by simp [Heap.empty]⟩ hs
  exact ⟨a, fun hc => (C104_careful_partial ops hc).resolve_left a⟩

example : Names.Sensible ⟨[], [], [], []⟩ prudent ∧ Notes.Careful ⟨[], []⟩ prudent := by
  simp [prudent, Names.Sensible, Names.can, Names.after, Notes.Careful, Notes.allows, Notes.after, Notes.unused]

end Verif.Move
