import Verif.Spec.Custom
import Verif.Proofs.Space

/-!
# C112: commands of the user's own classes
-/

set_option linter.unusedSimpArgs false

namespace Verif.Custom
open Spec (Lex)

variable {σ : Type} {U : User σ}

/-! ### To whom a line is offered -/

theorem offer_append (a b : List Target) (s : σ) : offer U (a ++ b) s = next (offer U a s) (offer U b) := by
  induction a generalizing s with
  | nil => rfl
  | cons t a ih =>
    cases t with
    | enter m => rfl
    | ask c args =>
      rw [List.cons_append, offer, offer]
      rcases h : U.exec c args s with ⟨s', _ | _ | e⟩
      · rfl
      · exact ih s'
      · rfl

theorem offer_enabled (hm : Modest U) : ∀ (a : List Target) (s s' : σ), offer U a s = (s', .no) → U.enabled s' = U.enabled s
  | [], s, s', h => by cases h; rfl
  | .enter m :: _, s, s', h => by cases h
  | .ask c args :: a, s, s', h => by
    rw [offer] at h
    rcases he : U.exec c args s with ⟨s1, _ | _ | e⟩
    · rw [he] at h; cases h
    · rw [he] at h
      rw [offer_enabled hm a s1 s' h, hm c args s s1 he]
    · rw [he] at h; cases h

theorem next_offer (hm : Modest U) {en : Nat → Bool} (a : List Target) {s : σ} (hs : U.enabled s = en) {k1 k2 : σ → σ × Answer} (hk : ∀ s, U.enabled s = en → k1 s = k2 s) : next (offer U a s) k1 = next (offer U a s) k2 := by
  rcases h : offer U a s with ⟨s', _ | _ | e⟩
  · rfl
  · exact hk s' ((offer_enabled hm a s s' h).trans hs)
  · rfl

def number (i : Nat) (l : List (List Nat × Target)) : List (List Nat × Target) := l.map (fun x => (i :: x.1, x.2))

theorem number_snd (i : Nat) (l : List (List Nat × Target)) : (number i l).map Prod.snd = l.map Prod.snd := by simp [number, Function.comp_def]

/-- The ways through the entries of a menu, `i` being the number of the first one. -/
def waysE (toks : List Str) (sub : Info → Forest → List (List Nat × Target)) : Nat → Forest → List (List Nat × Target)
  | _, .nil => []
  | i, .cmd c rest => ([i], .ask c toks) :: waysE toks sub (i + 1) rest
  | i, .menu m kids rest => number i (sub m kids) ++ waysE toks sub (i + 1) rest

/-- The ways that begin with going to a menu, the first of the path. -/
def waysH (en : Nat → Bool) : List Str → Bool → Path → List (List Nat × Target)
  | _, _, [] => []
  | [], _, _ => []
  | t :: rest, via, (m, kids) :: anc =>
    if en m.id = false then []
    else if t = m.name ∨ (via = true ∧ t = bs!"..") then
      if rest = [] then [([], .enter m.id)]
      else waysE rest (fun m' k' => waysH en rest false ((m', k') :: (m, kids) :: anc)) 0 kids ++ (if m.linked then number (entries kids).length (waysH en rest true anc) else [])
    else []

def ways (en : Nat → Bool) (toks : List Str) : Path → List (List Nat × Target)
  | [] => []
  | (m, kids) :: anc => waysE toks (fun m' k' => waysH en toks false ((m', k') :: (m, kids) :: anc)) 0 kids ++ (if m.linked then number (entries kids).length (waysH en toks true anc) else [])

theorem scanEntries_ways (hm : Modest U) {en : Nat → Bool} (toks : List Str) (sub : Info → Forest → σ → σ × Answer) (W : Info → Forest → List (List Nat × Target)) (h : ∀ m k s, U.enabled s = en → sub m k s = offer U ((W m k).map Prod.snd) s) :
    ∀ (f : Forest) (i : Nat) (s : σ), U.enabled s = en → scanEntries U toks sub f s = offer U ((waysE toks W i f).map Prod.snd) s
  | .nil, _, _, _ => rfl
  | .cmd c rest, i, s, hs => by
    rw [scanEntries, waysE, List.map_cons, ← List.singleton_append, offer_append]
    have : U.exec c toks s = offer U [.ask c toks] s := by
      rw [offer]
      rcases U.exec c toks s with ⟨s', _ | _ | e⟩ <;> rfl
    rw [this]
    exact next_offer hm _ hs (fun s hs => scanEntries_ways hm toks sub W h rest (i + 1) s hs)
  | .menu m kids rest, i, s, hs => by
    rw [scanEntries, waysE, List.map_append, number_snd, offer_append, h m kids s hs]
    exact next_offer hm _ hs (fun s hs => scanEntries_ways hm toks sub W h rest (i + 1) s hs)

theorem handle_ways (hm : Modest U) {en : Nat → Bool} : ∀ (toks : List Str) (via : Bool) (path : Path) (s : σ), U.enabled s = en → handle U toks via path s = offer U ((waysH en toks via path).map Prod.snd) s
  | [], via, [], s, hs => rfl
  | [], via, _ :: _, s, hs => rfl
  | _ :: _, via, [], s, hs => rfl
  | t :: rest, via, (m, kids) :: anc, s, hs => by
    rw [handle, waysH, hs]
    split
    · rfl
    · split
      · split
        · rfl
        · rw [List.map_append, offer_append]
          rw [scanEntries_ways hm rest _ (fun m' k' => waysH en rest false ((m', k') :: (m, kids) :: anc)) (fun m' k' s hs => handle_ways hm rest false _ s hs) kids 0 s hs]
          refine next_offer hm _ hs (fun s hs => ?_)
          split
          · rw [number_snd]; exact handle_ways hm rest true anc s hs
          · rfl
      · rfl

theorem scan_ways (hm : Modest U) (toks : List Str) (m : Info) (kids : Forest) (anc : Path) (s : σ) (he : U.enabled s m.id = true) : scan U toks ((m, kids) :: anc) s = offer U ((ways (U.enabled s) toks ((m, kids) :: anc)).map Prod.snd) s := by
  rw [scan, if_neg (by rw [he]; simp), ways, List.map_append, offer_append]
  rw [scanEntries_ways hm toks _ (fun m' k' => waysH (U.enabled s) toks false ((m', k') :: (m, kids) :: anc)) (fun m' k' s hs => handle_ways hm toks false _ s hs) kids 0 s rfl]
  refine next_offer hm _ rfl (fun s' hs => ?_)
  split
  · rw [number_snd]; exact handle_ways hm toks true anc s' hs
  · rfl

/-! The list is that of the specification. -/

theorem mem_number {i : Nat} {l : List (List Nat × Target)} {cs : List Nat} {x : Target} : (cs, x) ∈ number i l ↔ ∃ cs', cs = i :: cs' ∧ (cs', x) ∈ l := by
  simp only [number, List.mem_map, Prod.mk.injEq, Prod.exists]
  constructor
  · rintro ⟨a, b, h, rfl, rfl⟩; exact ⟨a, rfl, h⟩
  · rintro ⟨cs', rfl, h⟩; exact ⟨cs', x, h, rfl, rfl⟩

theorem mem_waysE {toks : List Str} {W : Info → Forest → List (List Nat × Target)} {cs : List Nat} {x : Target} : ∀ (f : Forest) (i : Nat), (cs, x) ∈ waysE toks W i f ↔
    ∃ n, (∃ c, (entries f)[n]? = some (.cmd c) ∧ cs = [i + n] ∧ x = .ask c toks) ∨ (∃ m k cs', (entries f)[n]? = some (.menu m k) ∧ cs = (i + n) :: cs' ∧ (cs', x) ∈ W m k)
  | .nil, i => by simp [waysE, entries]
  | .cmd c rest, i => by
    rw [waysE, List.mem_cons, mem_waysE rest (i + 1)]
    constructor
    · rintro (h | ⟨n, h⟩)
      · cases h; exact ⟨0, .inl ⟨c, rfl, rfl, rfl⟩⟩
      · refine ⟨n + 1, ?_⟩
        rw [show i + (n + 1) = i + 1 + n by omega]
        exact h
    · rintro ⟨n, h⟩
      cases n with
      | zero =>
        rcases h with ⟨c', h1, rfl, rfl⟩ | ⟨m, k, cs', h1, _⟩
        · cases h1; exact .inl rfl
        · cases h1
      | succ n =>
        right
        refine ⟨n, ?_⟩
        rw [show i + (n + 1) = i + 1 + n by omega] at h
        exact h
  | .menu m kids rest, i => by
    rw [waysE, List.mem_append, mem_number, mem_waysE rest (i + 1)]
    constructor
    · rintro (⟨cs', rfl, h⟩ | ⟨n, h⟩)
      · exact ⟨0, .inr ⟨m, kids, cs', rfl, rfl, h⟩⟩
      · refine ⟨n + 1, ?_⟩
        rw [show i + (n + 1) = i + 1 + n by omega]
        exact h
    · rintro ⟨n, h⟩
      cases n with
      | zero =>
        rcases h with ⟨c', h1, _⟩ | ⟨m', k, cs', h1, rfl, h⟩
        · cases h1
        · cases h1; exact .inl ⟨cs', rfl, h⟩
      | succ n =>
        right
        refine ⟨n, ?_⟩
        rw [show i + (n + 1) = i + 1 + n by omega] at h
        exact h

/-- The ways that begin with going to the first menu of the path. -/
def Into (en : Nat → Bool) (t : Str) (rest : List Str) (via : Bool) (m : Info) (path : Path) (cs : List Nat) (x : Target) : Prop :=
  en m.id = true ∧ (t = m.name ∨ (via = true ∧ t = bs!"..")) ∧ ((rest = [] ∧ cs = [] ∧ x = .enter m.id) ∨ (rest ≠ [] ∧ Way en path rest cs x))

theorem mem_ways_of {en : Nat → Bool} {t : Str} {rest : List Str} (m : Info) (kids : Forest) (anc : Path) (cs : List Nat) (x : Target)
    (hd : ∀ m' k', ∀ cs x, (cs, x) ∈ waysH en (t :: rest) false ((m', k') :: (m, kids) :: anc) ↔ Into en t rest false m' ((m', k') :: (m, kids) :: anc) cs x)
    (hu : ∀ p pk a, anc = (p, pk) :: a → ∀ cs x, (cs, x) ∈ waysH en (t :: rest) true anc ↔ Into en t rest true p anc cs x) :
    (cs, x) ∈ ways en (t :: rest) ((m, kids) :: anc) ↔ Way en ((m, kids) :: anc) (t :: rest) cs x := by
  rw [ways, List.mem_append, mem_waysE kids 0]
  constructor
  · rintro (⟨n, ⟨c, h1, rfl, rfl⟩ | ⟨m', k', cs', h1, rfl, h2⟩⟩ | h)
    · rw [Nat.zero_add]; exact .here h1
    · rw [Nat.zero_add]
      obtain ⟨e1, e2, e3⟩ := (hd m' k' cs' x).1 h2
      have et : t = m'.name := by simpa using e2
      subst et
      rcases e3 with ⟨rfl, rfl, rfl⟩ | ⟨e3, e4⟩
      · exact .enter (.down h1 e1)
      · cases rest with
        | nil => exact absurd rfl e3
        | cons t' ts => exact .step (.down h1 e1) e4
    · split at h
      · rename_i hl
        obtain ⟨cs', rfl, h5⟩ := mem_number.1 h
        cases anc with
        | nil => simp [waysH] at h5
        | cons q a =>
          obtain ⟨p, pk⟩ := q
          obtain ⟨e1, e2, e3⟩ := (hu p pk a rfl cs' x).1 h5
          have et : t = p.name ∨ t = bs!".." := by simpa using e2
          rcases e3 with ⟨rfl, rfl, rfl⟩ | ⟨e3, e4⟩
          · exact .enter (.up hl e1 et)
          · cases rest with
            | nil => exact absurd rfl e3
            | cons t' ts => exact .step (.up hl e1 et) e4
      · cases h
  · intro h
    generalize hT : t :: rest = T at h
    cases h with
    | here h1 => subst hT; exact .inl ⟨_, .inl ⟨_, h1, by rw [Nat.zero_add], rfl⟩⟩
    | enter hs =>
      cases hT
      cases hs with
      | down h1 h2 => exact .inl ⟨_, .inr ⟨_, _, [], h1, by rw [Nat.zero_add], (hd _ _ _ _).2 ⟨h2, .inl rfl, .inl ⟨rfl, rfl, rfl⟩⟩⟩⟩
      | up h1 h2 h3 =>
        right
        rw [if_pos h1]
        exact mem_number.2 ⟨[], rfl, (hu _ _ _ rfl _ _).2 ⟨h2, h3.imp id (fun h => ⟨rfl, h⟩), .inl ⟨rfl, rfl, rfl⟩⟩⟩
    | step hs hw =>
      cases hT
      cases hs with
      | down h1 h2 => exact .inl ⟨_, .inr ⟨_, _, _, h1, by rw [Nat.zero_add], (hd _ _ _ _).2 ⟨h2, .inl rfl, .inr ⟨by simp, hw⟩⟩⟩⟩
      | up h1 h2 h3 =>
        right
        rw [if_pos h1]
        exact mem_number.2 ⟨_, rfl, (hu _ _ _ rfl _ _).2 ⟨h2, h3.imp id (fun h => ⟨rfl, h⟩), .inr ⟨by simp, hw⟩⟩⟩

theorem mem_waysH {en : Nat → Bool} : ∀ (toks : List Str) (t : Str) (rest : List Str), toks = t :: rest → ∀ (via : Bool) (m : Info) (kids : Forest) (anc : Path) (cs : List Nat) (x : Target),
    (cs, x) ∈ waysH en toks via ((m, kids) :: anc) ↔ Into en t rest via m ((m, kids) :: anc) cs x
  | [], t, rest, h => by cases h
  | t' :: rest', t, rest, h => by
    cases h
    intro via m kids anc cs x
    rw [waysH]
    unfold Into
    split
    · rename_i he; simp [he]
    · rename_i he
      have he : en m.id = true := by simpa using he
      split
      · rename_i ht
        split
        · rename_i hr; simp [he, ht, hr]
        · rename_i hr
          cases rest' with
          | nil => exact absurd rfl hr
          | cons t2 ts =>
            have := mem_ways_of (en := en) (t := t2) (rest := ts) m kids anc cs x (fun m' k' cs x => mem_waysH (t2 :: ts) t2 ts rfl false m' k' _ cs x)
              (fun p pk a ha cs x => by subst ha; exact mem_waysH (t2 :: ts) t2 ts rfl true p pk a cs x)
            simp only [ways] at this
            rw [this]
            simp [he, ht]
      · rename_i ht; simp [ht]

theorem mem_ways {en : Nat → Bool} {t : Str} {rest : List Str} (m : Info) (kids : Forest) (anc : Path) (cs : List Nat) (x : Target) : (cs, x) ∈ ways en (t :: rest) ((m, kids) :: anc) ↔ Way en ((m, kids) :: anc) (t :: rest) cs x :=
  mem_ways_of m kids anc cs x (fun m' k' cs x => mem_waysH _ t rest rfl false m' k' _ cs x) (fun p pk a ha cs x => by subst ha; exact mem_waysH _ t rest rfl true p pk a cs x)

theorem number_ordered {i : Nat} {l : List (List Nat × Target)} (h : l.Pairwise (fun a b => Lex a.1 b.1)) : (number i l).Pairwise (fun a b => Lex a.1 b.1) := by
  unfold number
  rw [List.pairwise_map]
  exact h.imp (fun h => .inr ⟨rfl, h⟩)

theorem waysE_ordered {toks : List Str} {W : Info → Forest → List (List Nat × Target)} (h : ∀ m k, (W m k).Pairwise (fun a b => Lex a.1 b.1)) : ∀ (f : Forest) (i : Nat), (waysE toks W i f).Pairwise (fun a b => Lex a.1 b.1)
  | .nil, i => .nil
  | .cmd c rest, i => by
    rw [waysE, List.pairwise_cons]
    refine ⟨?_, waysE_ordered h rest (i + 1)⟩
    rintro ⟨cs, x⟩ hx
    obtain ⟨n, ⟨c', _, rfl, _⟩ | ⟨m, k, cs', _, rfl, _⟩⟩ := (mem_waysE rest (i + 1)).1 hx
    · exact .inl (by omega)
    · exact .inl (by omega)
  | .menu m kids rest, i => by
    rw [waysE, List.pairwise_append]
    refine ⟨number_ordered (h m kids), waysE_ordered h rest (i + 1), ?_⟩
    rintro ⟨cs, x⟩ hx ⟨cs2, x2⟩ hx2
    obtain ⟨cs', rfl, _⟩ := mem_number.1 hx
    obtain ⟨n, ⟨c', _, rfl, _⟩ | ⟨m, k, cs', _, rfl, _⟩⟩ := (mem_waysE rest (i + 1)).1 hx2
    · exact .inl (by omega)
    · exact .inl (by omega)

theorem both_ordered {toks : List Str} {W : Info → Forest → List (List Nat × Target)} {b : Bool} {up : List (List Nat × Target)} (kids : Forest) (h : ∀ m k, (W m k).Pairwise (fun a b => Lex a.1 b.1)) (hu : up.Pairwise (fun a b => Lex a.1 b.1)) :
    (waysE toks W 0 kids ++ (if b then number (entries kids).length up else [])).Pairwise (fun a b => Lex a.1 b.1) := by
  rw [List.pairwise_append]
  refine ⟨waysE_ordered h kids 0, ?_, ?_⟩
  · split
    · exact number_ordered hu
    · exact .nil
  · rintro ⟨cs, x⟩ hx ⟨cs2, x2⟩ hx2
    split at hx2
    · obtain ⟨cs', rfl, _⟩ := mem_number.1 hx2
      obtain ⟨n, ⟨c', h1, rfl, _⟩ | ⟨m, k, cs', h1, rfl, _⟩⟩ := (mem_waysE kids 0).1 hx
      all_goals
        obtain ⟨h2, _⟩ := List.getElem?_eq_some_iff.1 h1
        exact .inl (by omega)
    · cases hx2

theorem waysH_ordered (en : Nat → Bool) : ∀ (toks : List Str) (via : Bool) (path : Path), (waysH en toks via path).Pairwise (fun a b => Lex a.1 b.1)
  | [], via, [] => .nil
  | [], via, _ :: _ => .nil
  | _ :: _, via, [] => .nil
  | t :: rest, via, (m, kids) :: anc => by
    rw [waysH]
    split
    · exact .nil
    · split
      · split
        · exact List.pairwise_singleton _ _
        · exact both_ordered kids (fun m' k' => waysH_ordered en rest false _) (waysH_ordered en rest true anc)
      · exact .nil

/-- **C112** A line is offered to the commands and menus in the order of the choices that lead to them: the entries of the menu in the order of insertion, menus that the line names with the rest of the line, then the menu above. Each is asked once for each way that leads
    to it, and the first that does not decline decides. -/
theorem C112_dispatch (hm : Modest U) (t : Str) (rest : List Str) (m : Info) (kids : Forest) (anc : Path) (s : σ) (he : U.enabled s m.id = true) :
    ∃ L, Listing (U.enabled s) ((m, kids) :: anc) (t :: rest) L ∧ scan U (t :: rest) ((m, kids) :: anc) s = offer U (L.map Prod.snd) s :=
  ⟨ways (U.enabled s) (t :: rest) ((m, kids) :: anc), ⟨fun cs x => mem_ways m kids anc cs x, both_ordered kids (fun _ _ => waysH_ordered _ _ _ _) (waysH_ordered _ _ _ _)⟩, scan_ways hm (t :: rest) m kids anc s he⟩

/-- **C112** In a menu that was inserted as a `Command` no line leads upwards: every way begins with one of its entries. (That such a menu can be left in the same way as any other is false: `C112_stuck_refuted`.) -/
theorem C112_unlinked {en : Nat → Bool} {m : Info} {kids : Forest} {anc : Path} {toks : List Str} {cs : List Nat} {x : Target} (hl : m.linked = false) (h : Way en ((m, kids) :: anc) toks cs x) : ∃ i cs', cs = i :: cs' ∧ i < (entries kids).length := by
  have hs : ∀ {t i q}, Step en ((m, kids) :: anc) t i q → i < (entries kids).length := by
    intro t i q h
    cases h with
    | down h1 _ => exact (List.getElem?_eq_some_iff.1 h1).1
    | up h1 => rw [hl] at h1; cases h1
  cases h with
  | here h1 => exact ⟨_, _, rfl, (List.getElem?_eq_some_iff.1 h1).1⟩
  | enter h1 => exact ⟨_, _, rfl, hs h1⟩
  | step h1 _ => exact ⟨_, _, rfl, hs h1⟩

/-- **C112** (refuted) A menu inserted as a `Command` cannot be left by `..`: if its commands decline, so does the search, whatever is above. -/
theorem C112_stuck_refuted (m : Info) (kids : Forest) (anc : Path) (s : σ) (hl : m.linked = false) (hk : ∀ e ∈ entries kids, ∃ c, e = .cmd c ∧ ∀ s, U.exec c [bs!".."] s = (s, .no)) : scan U [bs!".."] ((m, kids) :: anc) s = (s, .no) := by
  rw [scan]
  split
  · rfl
  · have : ∀ (f : Forest) (sub : Info → Forest → σ → σ × Answer), (∀ e ∈ entries f, ∃ c, e = .cmd c ∧ ∀ s, U.exec c [bs!".."] s = (s, .no)) → scanEntries U [bs!".."] sub f s = (s, .no) := by
      intro f sub
      induction f with
      | nil => intro _; rfl
      | cmd c rest ih =>
        intro h
        obtain ⟨c', e, h1⟩ := h (.cmd c) (by simp [entries])
        cases e
        rw [scanEntries, h1]
        exact ih (fun e he => h e (by simp [entries, he]))
      | menu m' k' rest _ _ =>
        intro h
        obtain ⟨c', e, _⟩ := h (.menu m' k') (by simp [entries])
        cases e
    rw [this kids _ hk]
    simp [next, hl]

/-! ### Help -/

/-- What `help` writes about an entry. -/
def helpText (U : User σ) (desc : Nat → Str) (s : σ) : Entry → Str
  | .cmd c => U.help c s
  | .menu m _ => if U.enabled s m.id then bs!" - " ++ m.name ++ bs!"\n\t" ++ desc m.id ++ bs!"\n" else []

/-- **C112** `help` asks the entries of the menu in the order of insertion, and then describes the menu above, if it is known. -/
theorem C112_help (desc : Nat → Str) (s : σ) (m : Info) (kids : Forest) (anc : Path) (he : U.enabled s m.id = true) :
    mainHelp U desc s ((m, kids) :: anc) = (entries kids).flatMap (helpText U desc s) ++ (match m.linked, anc with | true, (p, k) :: _ => helpText U desc s (.menu p k) | _, _ => []) := by
  have hm : ∀ (q : Info) (k : Forest), menuHelp U desc s q = helpText U desc s (.menu q k) := by
    intro q k
    simp only [menuHelp, helpText]
    cases U.enabled s q.id <;> rfl
  have he' : ∀ f : Forest, helpEntries U desc s f = (entries f).flatMap (helpText U desc s) := by
    intro f
    induction f with
    | nil => rfl
    | cmd c rest ih => rw [helpEntries, ih]; rfl
    | menu m k rest _ ih => rw [helpEntries, ih, hm m k]; rfl
  unfold mainHelp
  dsimp only
  rw [if_neg (by rw [he]; simp), he']
  congr 1
  cases hl : m.linked with
  | false => cases anc <;> rfl
  | true =>
    cases anc with
    | nil => rfl
    | cons q a => obtain ⟨p, k⟩ := q; exact hm p k

/-! ### Completions -/

def Forest.named : Forest → Prop
  | .nil => True
  | .cmd _ rest => rest.named
  | .menu m kids rest => m.name ≠ [] ∧ kids.named ∧ rest.named

/-- No menu has an empty name. -/
def Named (path : Path) : Prop := ∀ q ∈ path, q.1.name ≠ [] ∧ q.2.named

theorem named_entry {f : Forest} {m : Info} {k : Forest} (h : f.named) (hm : .menu m k ∈ entries f) : m.name ≠ [] ∧ k.named := by
  induction f with
  | nil => simp [entries] at hm
  | cmd c rest ih =>
    simp only [entries, List.mem_cons] at hm
    rcases hm with hm | hm
    · cases hm
    · exact ih h hm
  | menu m' k' rest _ ih =>
    simp only [entries, List.mem_cons] at hm
    rcases hm with hm | hm
    · cases hm; exact ⟨h.1, h.2.1⟩
    · exact ih h.2.2 hm

theorem trim_ok (p : Platform) : ∀ (l : Str), (∀ c ∈ l, p.ctypeUB c = false) → Completion.trimLeft p l = .ok (trimmed l)
  | [], _ => rfl
  | c :: l, h => by
    rw [Completion.trimLeft, trimmed, if_neg (by rw [h c (by simp)]; simp)]
    by_cases hb : Spec.blank c
    · rw [if_pos (by rw [isSpace_eq]; exact hb), if_pos hb, trim_ok p l (fun d hd => h d (by simp [hd]))]
    · rw [if_neg (by rw [isSpace_eq]; exact hb), if_neg hb]

theorem trimmed_length : ∀ l : Str, (trimmed l).length ≤ l.length
  | [] => Nat.le_refl _
  | c :: l => by
    rw [trimmed]
    split
    · have := trimmed_length l; simp; omega
    · exact Nat.le_refl _

theorem trimmed_mem : ∀ {l : Str} {c : Byte}, c ∈ trimmed l → c ∈ l
  | [], _, h => by cases h
  | d :: l, c, h => by
    rw [trimmed] at h
    split at h
    · exact List.mem_cons_of_mem _ (trimmed_mem h)
    · exact h

theorem complEntries_mem {line : Str} {s : σ} {sub : Info → Forest → Except Fault (List Str)} {J : Info → Forest → Str → Prop} : ∀ (f : Forest), (∀ m k, .menu m k ∈ entries f → ∃ r, sub m k = .ok r ∧ ∀ x, x ∈ r ↔ J m k x) →
    ∃ r, complEntries U line s sub f = .ok r ∧ ∀ x, x ∈ r ↔ ((∃ c, .cmd c ∈ entries f ∧ x ∈ U.complete c line s) ∨ (∃ m k, .menu m k ∈ entries f ∧ J m k x))
  | .nil, _ => ⟨[], rfl, by simp [entries]⟩
  | .cmd c rest, h => by
    obtain ⟨r, h1, h2⟩ := complEntries_mem (line := line) (s := s) (J := J) rest (fun m k hm => h m k (by simp [entries, hm]))
    refine ⟨U.complete c line s ++ r, by simp only [complEntries, h1]; rfl, fun x => ?_⟩
    rw [List.mem_append, h2]
    simp only [entries, List.mem_cons, Entry.cmd.injEq, reduceCtorEq, false_or]
    constructor
    · rintro (h | ⟨c', h, h'⟩ | h)
      · exact .inl ⟨c, .inl rfl, h⟩
      · exact .inl ⟨c', .inr h, h'⟩
      · exact .inr h
    · rintro (⟨c', rfl | h, h'⟩ | h)
      · exact .inl h'
      · exact .inr (.inl ⟨c', h, h'⟩)
      · exact .inr (.inr h)
  | .menu m k rest, h => by
    obtain ⟨r, h1, h2⟩ := complEntries_mem (line := line) (s := s) (J := J) rest (fun m k hm => h m k (by simp [entries, hm]))
    obtain ⟨a, h3, h4⟩ := h m k (by simp [entries])
    refine ⟨a ++ r, by simp only [complEntries, h1, h3]; rfl, fun x => ?_⟩
    rw [List.mem_append, h2, h4]
    simp only [entries, List.mem_cons, Entry.menu.injEq, reduceCtorEq, false_or]
    constructor
    · rintro (h | ⟨c', h, h'⟩ | ⟨m', k', h, h'⟩)
      · exact .inr ⟨m, k, .inl ⟨rfl, rfl⟩, h⟩
      · exact .inl ⟨c', h, h'⟩
      · exact .inr ⟨m', k', .inr h, h'⟩
    · rintro (⟨c', h, h'⟩ | ⟨m', k', ⟨rfl, rfl⟩ | h, h'⟩)
      · exact .inr (.inl ⟨c', h, h'⟩)
      · exact .inl h'
      · exact .inr (.inr ⟨m', k', h, h'⟩)

/-- What a menu contributes to the completions where it is an entry, or the menu above (`via`). -/
def Joins (U : User σ) (s : σ) (via : Bool) (m : Info) (path : Path) (line x : Str) : Prop :=
  (∃ r y, line = m.name ++ r ∧ x = m.name ++ bs!" " ++ y ∧ Offers U s path (trimmed r) y) ∨
  (¬ m.name <+: line ∧ via = true ∧ ∃ r y, line = bs!".." ++ r ∧ x = bs!".." ++ bs!" " ++ y ∧ Offers U s path (trimmed r) y) ∨
  (¬ m.name <+: line ∧ (via = true → ¬ bs!".." <+: line) ∧ U.enabled s m.id = true ∧ line <+: m.name ∧ x = m.name)

theorem level_mem (p : Platform) (s : σ) (fuel : Nat) (line : Str)
    (ih : ∀ (via : Bool) (m : Info) (k : Forest) (anc : Path), Named ((m, k) :: anc) → ∃ r, complMenu U p s fuel via ((m, k) :: anc) line = .ok r ∧ ∀ x, x ∈ r ↔ Joins U s via m ((m, k) :: anc) line x)
    (m : Info) (kids : Forest) (anc : Path) (hn : Named ((m, kids) :: anc)) : ∃ r, complCurrent U p fuel line s ((m, kids) :: anc) = .ok r ∧ ∀ x, x ∈ r ↔ Offers U s ((m, kids) :: anc) line x := by
  obtain ⟨a, h1, h2⟩ := complEntries_mem (U := U) (line := line) (s := s) (sub := fun m' kids' => complMenu U p s fuel false ((m', kids') :: (m, kids) :: anc) line)
    (J := fun m' k' x => Joins U s false m' ((m', k') :: (m, kids) :: anc) line x) kids (fun m' k' hm => ih false m' k' _ (by
      intro q hq
      rcases List.mem_cons.1 hq with rfl | hq
      · exact named_entry (hn (m, kids) (by simp)).2 hm
      · exact hn q hq))
  have hup : ∃ b, cond m.linked (complMenu U p s fuel true anc line) (.ok []) = .ok b ∧ ∀ x, x ∈ b ↔ (m.linked = true ∧ ∃ q pk a', anc = (q, pk) :: a' ∧ Joins U s true q anc line x) := by
    cases hl : m.linked with
    | false => exact ⟨[], rfl, by simp⟩
    | true =>
      cases anc with
      | nil => exact ⟨[], by cases fuel <;> rfl, by simp⟩
      | cons q a' =>
        obtain ⟨q, pk⟩ := q
        obtain ⟨b, h3, h4⟩ := ih true q pk a' (fun x hx => hn x (List.mem_cons_of_mem _ hx))
        refine ⟨b, by rw [cond_true, h3], fun x => ?_⟩
        rw [h4]
        constructor
        · intro h; exact ⟨rfl, q, pk, a', rfl, h⟩
        · rintro ⟨_, q', pk', a'', e, h⟩; cases e; exact h
  obtain ⟨b, h3, h4⟩ := hup
  refine ⟨a ++ b, by simp only [complCurrent, h1, h3, bind, Except.bind], fun x => ?_⟩
  rw [List.mem_append, h2, h4]
  constructor
  · rintro ((⟨c, g1, g2⟩ | ⟨m', k', g1, ⟨r, y, rfl, rfl, g2⟩ | ⟨_, g2, _⟩ | ⟨g2, g3, g4, g5, rfl⟩⟩) | ⟨g0, q, pk, a', rfl, ⟨r, y, rfl, rfl, g2⟩ | ⟨g1, _, r, y, rfl, rfl, g2⟩ | ⟨g2, g3, g4, g5, rfl⟩⟩)
    · exact .cmd g1 g2
    · exact .inside g1 g2
    · cases g2
    · exact .name g1 g2 g4 g5
    · exact .above g0 g2
    · exact .dots g0 g1 g2
    · exact .parent g0 g2 (g3 rfl) g4 g5
  · intro h
    cases h with
    | cmd g1 g2 => exact .inl (.inl ⟨_, g1, g2⟩)
    | name g1 g2 g3 g4 => exact .inl (.inr ⟨_, _, g1, .inr (.inr ⟨g2, (by simp), g3, g4, rfl⟩)⟩)
    | inside g1 g2 => exact .inl (.inr ⟨_, _, g1, .inl ⟨_, _, rfl, rfl, g2⟩⟩)
    | parent g0 g1 g2 g3 g4 => exact .inr ⟨g0, _, _, _, rfl, .inr (.inr ⟨g1, fun _ => g2, g3, g4, rfl⟩)⟩
    | above g0 g1 => exact .inr ⟨g0, _, _, _, rfl, .inl ⟨_, _, rfl, rfl, g1⟩⟩
    | dots g0 g1 g2 => exact .inr ⟨g0, _, _, _, rfl, .inr (.inl ⟨g1, rfl, _, _, rfl, rfl, g2⟩)⟩

theorem menu_mem (p : Platform) (s : σ) : ∀ (fuel : Nat) (line : Str), line.length < fuel → (∀ c ∈ line, p.ctypeUB c = false) → ∀ (via : Bool) (m : Info) (k : Forest) (anc : Path), Named ((m, k) :: anc) →
    ∃ r, complMenu U p s fuel via ((m, k) :: anc) line = .ok r ∧ ∀ x, x ∈ r ↔ Joins U s via m ((m, k) :: anc) line x
  | 0, _, hf, _ => by omega
  | fuel + 1, line, hf, hc => by
    intro via m k anc hn
    have hlp : ∀ (pre r : Str), pre ≠ [] → line = pre ++ r → ∃ l, (do
        let rest ← Completion.trimLeft p (line.drop pre.length)
        let a ← complEntries U rest s (fun m' kids' => complMenu U p s fuel false ((m', kids') :: (m, k) :: anc) rest) k
        let b ← cond m.linked (complMenu U p s fuel true anc rest) (.ok [])
        .ok ((a ++ b).map (fun c => pre ++ bs!" " ++ c)) : Except Fault (List Str)) = .ok l ∧ ∀ x, x ∈ l ↔ ∃ y, x = pre ++ bs!" " ++ y ∧ Offers U s ((m, k) :: anc) (trimmed r) y := by
      intro pre r hp hl
      subst hl
      have hcr : ∀ c ∈ r, p.ctypeUB c = false := fun c h => hc c (by simp [h])
      have hlen : (trimmed r).length < fuel := by
        have h1 := trimmed_length r
        have h2 : 0 < pre.length := List.length_pos_iff.2 hp
        simp only [List.length_append] at hf
        omega
      obtain ⟨l, h1, h2⟩ := level_mem (U := U) p s fuel (trimmed r) (fun via m k anc hn => menu_mem p s fuel (trimmed r) hlen (fun c h => hcr c (trimmed_mem h)) via m k anc hn) m k anc hn
      refine ⟨l.map (fun c => pre ++ bs!" " ++ c), ?_, fun x => ?_⟩
      · rw [List.drop_left, trim_ok p r hcr]
        simp only [complCurrent, bind, Except.bind] at h1 ⊢
        split at h1
        · cases h1
        · rename_i e1
          split at h1
          · cases h1
          · rename_i e2
            cases h1
            rfl
      · simp only [List.mem_map]
        constructor
        · rintro ⟨y, hy, rfl⟩; exact ⟨y, rfl, (h2 y).1 hy⟩
        · rintro ⟨y, rfl, hy⟩; exact ⟨y, (h2 y).2 hy, rfl⟩
    rw [complMenu]
    dsimp only
    by_cases h1 : m.name <+: line
    · rw [if_pos (List.isPrefixOf_iff_prefix.2 h1)]
      obtain ⟨r, hr⟩ := h1
      obtain ⟨l, e1, e2⟩ := hlp m.name r (hn (m, k) (by simp)).1 hr.symm
      refine ⟨l, e1, fun x => ?_⟩
      rw [e2]
      unfold Joins
      constructor
      · rintro ⟨y, rfl, h⟩; exact .inl ⟨r, y, hr.symm, rfl, h⟩
      · rintro (⟨r', y, g1, rfl, g2⟩ | ⟨g1, _⟩ | ⟨g1, _⟩)
        · rw [← hr] at g1
          have := List.append_cancel_left g1
          subst this
          exact ⟨y, rfl, g2⟩
        · exact absurd ⟨r, hr⟩ g1
        · exact absurd ⟨r, hr⟩ g1
    · rw [if_neg (fun h => h1 (List.isPrefixOf_iff_prefix.1 h))]
      by_cases h2 : via = true ∧ bs!".." <+: line
      · rw [if_pos (by rw [Bool.and_eq_true]; exact ⟨h2.1, List.isPrefixOf_iff_prefix.2 h2.2⟩)]
        obtain ⟨hv, r, hr⟩ := h2
        obtain ⟨l, e1, e2⟩ := hlp bs!".." r (by simp) hr.symm
        refine ⟨l, e1, fun x => ?_⟩
        rw [e2]
        unfold Joins
        constructor
        · rintro ⟨y, rfl, h⟩; exact .inr (.inl ⟨h1, hv, r, y, hr.symm, rfl, h⟩)
        · rintro (⟨r', y, g1, rfl, g2⟩ | ⟨_, _, r', y, g1, rfl, g2⟩ | ⟨_, g1, _⟩)
          · exact absurd ⟨r', g1.symm⟩ h1
          · rw [← hr] at g1
            have := List.append_cancel_left g1
            subst this
            exact ⟨y, rfl, g2⟩
          · exact absurd ⟨r, hr⟩ (g1 hv)
      · rw [if_neg (by rw [Bool.and_eq_true]; exact fun h => h2 ⟨h.1, List.isPrefixOf_iff_prefix.1 h.2⟩)]
        refine ⟨_, rfl, fun x => ?_⟩
        unfold Joins Completion.complName
        constructor
        · intro h
          right; right
          cases he : U.enabled s m.id with
          | false => rw [he] at h; simp at h
          | true =>
            rw [he] at h
            simp only [Bool.not_true, Bool.false_eq_true, if_false] at h
            split at h
            · rename_i hp
              simp at h
              exact ⟨h1, fun hv hd => h2 ⟨hv, hd⟩, rfl, List.isPrefixOf_iff_prefix.1 hp, h⟩
            · cases h
        · rintro (⟨r', y, g1, rfl, g2⟩ | ⟨_, g0, r', y, g1, rfl, g2⟩ | ⟨_, g1, g2, g3, rfl⟩)
          · exact absurd ⟨r', g1.symm⟩ h1
          · exact absurd ⟨g0, r', g1.symm⟩ h2
          · rw [g2]
            simp [List.isPrefixOf_iff_prefix.2 g3]

/-- **C112** The completions of a line in a menu are exactly what its commands offer for it, what the menus named at its beginning offer for the rest, and the names of menus that it begins. For all menus with names, and depth of the recursion at most the length of
    the line. -/
theorem C112_completions (p : Platform) (s : σ) (fuel : Nat) (line : Str) (hf : line.length < fuel) (hc : ∀ c ∈ line, p.ctypeUB c = false) (m : Info) (kids : Forest) (anc : Path) (hn : Named ((m, kids) :: anc)) :
    ∃ r, complCurrent U p fuel line s ((m, kids) :: anc) = .ok r ∧ ∀ x, x ∈ r ↔ Offers U s ((m, kids) :: anc) line x :=
  level_mem p s fuel line (fun via m k anc hn => menu_mem p s fuel line hf hc via m k anc hn) m kids anc hn

/-! ### An example -/

/-- Command 1 accepts lines that begin with `go`, command 2 all lines with two tokens, command 3 declines everything. -/
def user : User (List (Nat × List Str)) where
  exec c toks s := (s ++ [(c, toks)], if (c = 1 ∧ toks.head? = some bs!"go") ∨ (c = 2 ∧ toks.length = 2) then .yes else .no)
  help c _ := bs!"command " ++ decimal c ++ bs!"\n"
  complete c line _ := if c = 1 then [line ++ bs!"!"] else []
  enabled _ _ := true
  enter m s := s ++ [(100 + m, [])]

def kids : Forest := .cmd 3 (.menu ⟨10, bs!"sub", true⟩ (.cmd 1 (.cmd 2 .nil)) (.cmd 2 (.menu ⟨11, bs!"odd", false⟩ (.cmd 1 .nil) .nil)))
def root : Path := [(⟨0, bs!"root", true⟩, kids)]

theorem modest : Modest user := fun _ _ _ _ _ => rfl

example : scan user [bs!"sub", bs!"x"] root [] = ([(3, [bs!"sub", bs!"x"]), (1, [bs!"x"]), (2, [bs!"x"]), (2, [bs!"sub", bs!"x"])], .yes) := by decide +kernel
/-- from the submenu, upwards: command 3 declines again -/
example : scan user [bs!"..", bs!"odd", bs!"go"] ((⟨10, bs!"sub", true⟩, .cmd 1 (.cmd 2 .nil)) :: root) [] =
    ([(1, [bs!"..", bs!"odd", bs!"go"]), (2, [bs!"..", bs!"odd", bs!"go"]), (3, [bs!"odd", bs!"go"]), (2, [bs!"odd", bs!"go"])], .yes) := by decide +kernel
/-- the menu that was inserted as a command cannot be left -/
example : scan user [bs!".."] ((⟨11, bs!"odd", false⟩, .cmd 1 .nil) :: root) [] = ([(1, [bs!".."])], .no) ∧ scan user [bs!".."] ((⟨10, bs!"sub", true⟩, .cmd 1 (.cmd 2 .nil)) :: root) [] = ([(1, [bs!".."]), (2, [bs!".."]), (100, [])], .yes) := by decide +kernel
example : Way (user.enabled []) root [bs!"sub", bs!"x"] [1, 0] (.ask 1 [bs!"x"]) := by
  refine .step (i := 1) (q := (⟨10, bs!"sub", true⟩, .cmd 1 (.cmd 2 .nil)) :: root) ?_ (.here rfl)
  exact Step.down (m := ⟨10, bs!"sub", true⟩) rfl rfl
example : (complCurrent user { charSigned := false, strictOverflow := false, parseFloat := fun _ _ => none, extract := fun _ _ => .ok none } 9 bs!"sub x" [] root).toOption = some [bs!"sub x!"] := by decide +kernel

end Verif.Custom
