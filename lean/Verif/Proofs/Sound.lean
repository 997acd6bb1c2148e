import Verif.Proofs.First
import Verif.Spec.Global

set_option linter.unusedSimpArgs false

/-!
# What the search can do, whatever the handlers do
-/

namespace Verif
open Spec
open FromString (Value ConvErr)

variable {σ τ : Type}

/-! ### User code does not touch the session -/

/-- The part of the session that user code cannot reach. -/
structure SameSession (w w' : World σ τ) : Prop where
  hist : w'.hist = w.hist
  current : w'.current = w.current
  exit : w'.exit = w.exit
  storage : w'.storage = w.storage

theorem SameSession.refl (w : World σ τ) : SameSession w w := ⟨rfl, rfl, rfl, rfl⟩
theorem SameSession.trans {a b c : World σ τ} (h1 : SameSession a b) (h2 : SameSession b c) : SameSession a c :=
  ⟨h2.hist.trans h1.hist, h2.current.trans h1.current, h2.exit.trans h1.exit, h2.storage.trans h1.storage⟩

theorem act_same (w : World σ τ) (a : Act) : SameSession w (w.act a) ∧ (w.act a).log = w.log ∧ w.gen ≤ (w.act a).gen ∧
    ((w.act a).gen = w.gen → (w.act a).tree = w.tree) := by
  cases a with
  | out s => exact ⟨⟨rfl, rfl, rfl, rfl⟩, rfl, Nat.le_refl _, fun _ => rfl⟩
  | cout s => exact ⟨⟨rfl, rfl, rfl, rfl⟩, rfl, Nat.le_refl _, fun _ => rfl⟩
  | color on => exact ⟨⟨rfl, rfl, rfl, rfl⟩, rfl, Nat.le_refl _, fun _ => rfl⟩
  | enable id => simp only [World.act]; split <;> exact ⟨⟨rfl, rfl, rfl, rfl⟩, rfl, Nat.le_refl _, fun _ => rfl⟩
  | disable id => simp only [World.act]; split <;> exact ⟨⟨rfl, rfl, rfl, rfl⟩, rfl, Nat.le_refl _, fun _ => rfl⟩
  | remove id =>
    simp only [World.act]; split
    · exact ⟨⟨rfl, rfl, rfl, rfl⟩, rfl, by simp, fun h => by simp at h⟩
    · exact ⟨⟨rfl, rfl, rfl, rfl⟩, rfl, Nat.le_refl _, fun _ => rfl⟩
  | insert mid new =>
    simp only [World.act]; split
    · exact ⟨⟨rfl, rfl, rfl, rfl⟩, rfl, by simp, fun h => by simp at h⟩
    · exact ⟨⟨rfl, rfl, rfl, rfl⟩, rfl, Nat.le_refl _, fun _ => rfl⟩

theorem acts_same (as : List Act) : ∀ (w : World σ τ), SameSession w (as.foldl World.act w) ∧ (as.foldl World.act w).log = w.log ∧
    w.gen ≤ (as.foldl World.act w).gen ∧ ((as.foldl World.act w).gen = w.gen → (as.foldl World.act w).tree = w.tree) := by
  induction as with
  | nil => intro w; exact ⟨.refl w, rfl, Nat.le_refl _, fun _ => rfl⟩
  | cons a as ih =>
    intro w
    obtain ⟨h1, h2, h3, h4⟩ := act_same w a
    obtain ⟨g1, g2, g3, g4⟩ := ih (w.act a)
    simp only [List.foldl_cons]
    exact ⟨h1.trans g1, g2.trans h2, Nat.le_trans h3 g3, fun h => (g4 (by omega)).trans (h4 (by omega))⟩

theorem effect_same (w : World σ τ) (e : Effect σ) : SameSession w (w.effect e) ∧ (w.effect e).log = w.log ∧ w.gen ≤ (w.effect e).gen ∧
    ((w.effect e).gen = w.gen → (w.effect e).tree = w.tree) := by
  obtain ⟨h1, h2, h3, h4⟩ := acts_same e.acts { w with app := e.app }
  exact ⟨⟨h1.hist, h1.current, h1.exit, h1.storage⟩, h2, h3, h4⟩

section
variable (A : App σ τ)

/-- A handler was called that is designated by `L`, in the menus as they are in `w`. -/
def RanFrom (w : World σ τ) (L : List Cand) (dis : Id → Bool) (e : Event) : Prop :=
  ∃ c args vals x cs, e = .ran c vals ⟨w.tree, dis, w.current⟩ x ∧ dis c.id = false ∧ (cs, Target.cmd c args) ∈ L ∧ Accepts A.plat c args vals

/-- What a search may do: `L dis` are the designations it tries if `dis` tells what is disabled. -/
def Good (w : World σ τ) (L : (Id → Bool) → List Cand) (r : Res σ τ) : Prop := ∀ w' o, r = .ok (w', o) →
  (w'.gen = w.gen → w'.tree = w.tree) ∧
  w'.hist = w.hist ∧ w'.exit = w.exit ∧ w'.storage = w.storage ∧
  (o ≠ .found → w'.current = w.current) ∧
  ∃ evs, w'.log = w.log ++ evs ∧
    (∀ e ∈ evs, ∃ dis, RanFrom A w (L allOn) dis e) ∧
    (∀ e, evs.head? = some e → RanFrom A w (L w.dis) w.dis e) ∧
    (evs = [] → w' = w ∧ o ≠ .found ∨
      o = .found ∧ ∃ cs m k q, (cs, Target.menu ((m, k) :: q)) ∈ L w.dis ∧ w' = { w with current := m.id }) ∧
    (o = .found → w'.current = w.current ∨ ∃ cs m k q, (cs, Target.menu ((m, k) :: q)) ∈ L allOn ∧ w'.current = m.id) ∧
    (o = .notFound → ∀ e ∈ evs, ∃ c v s what, e = .ran c v s (some (.badCast what)))

theorem good_mono {w : World σ τ} {L L' : (Id → Bool) → List Cand} {r : Res σ τ}
    (hL : ∀ d cs t, (cs, t) ∈ L d → ∃ cs', (cs', t) ∈ L' d) (h : Good A w L r) : Good A w L' r := by
  intro w' o hr
  obtain ⟨h1, h2, h3, h4, h5, evs, h6, h7, h8, h9, h10, h11⟩ := h w' o hr
  have mono : ∀ d dis e, RanFrom A w (L d) dis e → RanFrom A w (L' d) dis e := by
    rintro d dis e ⟨c, args, vals, x, cs, r1, r2, r3, r4⟩
    obtain ⟨cs', r3'⟩ := hL d cs _ r3
    exact ⟨c, args, vals, x, cs', r1, r2, r3', r4⟩
  refine ⟨h1, h2, h3, h4, h5, evs, h6, ?_, ?_, ?_, ?_, h11⟩
  · intro e he
    obtain ⟨dis, hd⟩ := h7 e he
    exact ⟨dis, mono _ _ _ hd⟩
  · intro e he; exact mono _ _ _ (h8 e he)
  · intro he
    rcases h9 he with h | ⟨ho, cs, m, k, q, hm, hw⟩
    · exact .inl h
    · obtain ⟨cs', hm'⟩ := hL _ _ _ hm
      exact .inr ⟨ho, cs', m, k, q, hm', hw⟩
  · intro ho
    rcases h10 ho with h | ⟨cs, m, k, q, hm, hw⟩
    · exact .inl h
    · obtain ⟨cs', hm'⟩ := hL _ _ _ hm
      exact .inr ⟨cs', m, k, q, hm', hw⟩

theorem good_notFound (w : World σ τ) (L : (Id → Bool) → List Cand) : Good A w L (.ok (w, .notFound)) := by
  intro w' o h
  cases h
  exact ⟨fun _ => rfl, rfl, rfl, rfl, fun _ => rfl, [], by simp, by simp, by simp, fun _ => .inl ⟨rfl, by simp⟩, by simp, by simp⟩

theorem good_error (w : World σ τ) (L : (Id → Bool) → List Cand) (f : Fault) : Good A w L (.error f) := by
  intro w' o h; cases h

theorem good_perform (w : World σ τ) (c : Cmd) (args : List Str) (L : (Id → Bool) → List Cand) (hd : w.dis c.id = false)
    (hL : ∃ cs, (cs, Target.cmd c args) ∈ L w.dis) (hL' : ∃ cs, (cs, Target.cmd c args) ∈ L allOn) : Good A w L (perform A c args w) := by
  intro w' o h
  unfold perform at h
  split at h
  · cases h; exact good_notFound A w L _ _ rfl
  · cases h
    exact ⟨fun _ => rfl, rfl, rfl, rfl, fun _ => rfl, [], by simp, by simp, by simp, fun _ => .inl ⟨rfl, by simp⟩, by simp, by simp⟩
  · cases h
  · rename_i vals hv
    have hacc := (verdict_run A.plat c args vals).1 hv
    obtain ⟨s1, s2, s3, s4⟩ := effect_same w (A.handler c.fn w.app vals)
    have hsw : o = .notFound → ∃ what, (A.handler c.fn w.app vals).exn = some (.badCast what) := by
      intro ho
      subst ho
      simp only [callHandler] at h
      cases hx : (A.handler c.fn w.app vals).exn with
      | none => rw [hx] at h; cases h
      | some e =>
        rw [hx] at h
        cases e with
        | badCast what => exact ⟨what, rfl⟩
        | std s => cases h
        | other => cases h
    have hw : w' = (w.effect (A.handler c.fn w.app vals)).note (.ran c vals w.snap (A.handler c.fn w.app vals).exn) := by
      simp only [callHandler] at h
      cases hx : (A.handler c.fn w.app vals).exn with
      | none => rw [hx] at h; cases h; rfl
      | some e =>
        rw [hx] at h
        cases e <;> cases hk : c.kind <;> rw [hk] at h <;> cases h <;> rfl
    subst hw
    refine ⟨s4, s1.hist, s1.exit, s1.storage, fun _ => s1.current, [.ran c vals w.snap (A.handler c.fn w.app vals).exn], ?_, ?_, ?_, by simp, ?_, ?_⟩
    · simp [World.note, s2]
    · intro e he
      simp only [List.mem_singleton] at he
      obtain ⟨cs, hcs⟩ := hL'
      exact ⟨w.dis, c, args, vals, _, cs, he, hd, hcs, hacc⟩
    · intro e he
      simp only [List.head?_cons, Option.some.injEq] at he
      obtain ⟨cs, hcs⟩ := hL
      exact ⟨c, args, vals, _, cs, he.symm, hd, hcs, hacc⟩
    · intro _; exact .inl s1.current
    · intro ho e he
      simp only [List.mem_singleton] at he
      subst he ho
      obtain ⟨what, hx⟩ := hsw rfl
      exact ⟨c, vals, _, what, by rw [hx]⟩

theorem ranFrom_same {w w' : World σ τ} {L : List Cand} {dis : Id → Bool} {e : Event} (ht : w'.tree = w.tree) (hc : w'.current = w.current)
    (h : RanFrom A w' L dis e) : RanFrom A w L dis e := by
  obtain ⟨c, args, vals, x, cs, r1, r2, r3, r4⟩ := h
  exact ⟨c, args, vals, x, cs, by rw [r1, ht, hc], r2, r3, r4⟩


theorem good_goOn {w : World σ τ} {L1 L2 : (Id → Bool) → List Cand} {r : Res σ τ} {next : World σ τ → Res σ τ} (h1 : Good A w L1 r)
    (h2 : ∀ w', w'.tree = w.tree → w'.current = w.current → Good A w' L2 (next w')) :
    Good A w (fun d => L1 d ++ L2 d) (goOn w r next) := by
  have hl : ∀ d cs t, (cs, t) ∈ L1 d → ∃ cs', (cs', t) ∈ (fun d => L1 d ++ L2 d) d := fun d cs t h => ⟨cs, by simp [h]⟩
  intro w' o hr
  unfold goOn at hr
  split at hr
  · rename_i w1
    split at hr
    · rename_i hg
      obtain ⟨a1, a2, a3, a4, a5, evs, a6, a7, a8, a9, a10, a11⟩ := h1 _ _ rfl
      have ht := a1 hg
      have hc := a5 (by simp)
      obtain ⟨b1, b2, b3, b4, b5, evs', b6, b7, b8, b9, b10, b11⟩ := h2 w1 ht hc w' o hr
      have mono1 : ∀ d dis e, RanFrom A w (L1 d) dis e → RanFrom A w (L1 d ++ L2 d) dis e := by
        rintro d dis e ⟨c, args, vals, x, cs, r1, r2, r3, r4⟩
        exact ⟨c, args, vals, x, cs, r1, r2, by simp [r3], r4⟩
      have mono2 : ∀ d dis e, RanFrom A w1 (L2 d) dis e → RanFrom A w (L1 d ++ L2 d) dis e := by
        rintro d dis e h
        obtain ⟨c, args, vals, x, cs, r1, r2, r3, r4⟩ := ranFrom_same A ht hc h
        exact ⟨c, args, vals, x, cs, r1, r2, by simp [r3], r4⟩
      refine ⟨fun h => (b1 (by omega)).trans ht, b2.trans a2, b3.trans a3, b4.trans a4, fun h => (b5 h).trans hc, evs ++ evs', by rw [b6, a6, List.append_assoc], ?_, ?_, ?_, ?_, ?_⟩
      · intro e he
        simp only [List.mem_append] at he
        rcases he with he | he
        · obtain ⟨d, hd⟩ := a7 e he; exact ⟨d, mono1 _ _ _ hd⟩
        · obtain ⟨d, hd⟩ := b7 e he; exact ⟨d, mono2 _ _ _ hd⟩
      · intro e he
        cases evs with
        | cons e0 evs => simp at he; subst he; exact mono1 _ _ _ (a8 _ rfl)
        | nil =>
          rcases a9 rfl with ⟨hw, _⟩ | ⟨ho, _⟩
          · subst hw; simp only [List.nil_append] at he; exact mono2 _ _ _ (b8 e he)
          · cases ho
      · intro he
        simp only [List.append_eq_nil_iff] at he
        obtain ⟨rfl, rfl⟩ := he
        rcases a9 rfl with ⟨hw, _⟩ | ⟨ho, _⟩
        · subst hw
          rcases b9 rfl with h | ⟨ho, cs, m, k, q, hm, hw⟩
          · exact .inl h
          · exact .inr ⟨ho, cs, m, k, q, by simp [hm], hw⟩
        · cases ho
      · intro ho
        rcases b10 ho with h | ⟨cs, m, k, q, hm, hw⟩
        · exact .inl (h.trans hc)
        · exact .inr ⟨cs, m, k, q, by simp [hm], hw⟩
      · intro ho e he
        rw [List.mem_append] at he
        exact he.elim (a11 rfl e) (b11 ho e)
    · cases hr
  · exact good_mono A hl h1 w' o (by assumption)

theorem good_sub {w : World σ τ} {L L' : (Id → Bool) → List Cand} {r : Res σ τ} (hL : ∀ d, ∀ x ∈ L d, x ∈ L' d) (h : Good A w L r) :
    Good A w L' r := good_mono A (fun d cs _ h => ⟨cs, hL d _ h⟩) h

theorem good_map {w : World σ τ} {L : (Id → Bool) → List Cand} {r : Res σ τ} (n : Nat) (h : Good A w L r) :
    Good A w (fun d => (L d).map (fun x => (n :: x.1, x.2))) r :=
  good_mono A (fun d cs t h => ⟨n :: cs, by simp only [List.mem_map]; exact ⟨(cs, t), h, rfl⟩⟩) h

theorem good_scanEntries (t : Str) (args : List Str) (sub : MenuInfo → Forest → World σ τ → Res σ τ)
    (csub : (Id → Bool) → MenuInfo → Forest → List Cand) (hs : ∀ m k w, Good A w (fun d => csub d m k) (sub m k w)) (f : Forest) :
    ∀ i (w : World σ τ), Good A w (fun d => candEntries d (t :: args) (csub d) i f) (scanEntries A (t :: args) sub f w) := by
  induction f with
  | nil => intro i w; exact good_notFound A w _
  | cmd c rest ih =>
    intro i w
    simp only [scanEntries, candEntries]
    refine good_goOn A (L1 := fun d => if d c.id = false ∧ c.name = t then [([i], .cmd c args)] else [])
      (L2 := fun d => candEntries d (t :: args) (csub d) (i + 1) rest) ?_ (fun w' _ _ => ih (i + 1) w')
    rw [execCmd_eq]
    split
    · rename_i hc
      exact good_perform A w c args _ hc.1 ⟨[i], by simp [hc]⟩ ⟨[i], by simp [hc, allOn]⟩
    · exact good_notFound A w _
  | menu m kids rest _ ih =>
    intro i w
    simp only [scanEntries, candEntries]
    exact good_goOn A (L1 := fun d => (csub d m kids).map (fun x => (i :: x.1, x.2)))
      (L2 := fun d => candEntries d (t :: args) (csub d) (i + 1) rest) (good_map A i (hs m kids w)) (fun w' _ _ => ih (i + 1) w')

theorem good_inside (t : Str) (args : List Str) (m : MenuInfo) (kids : Forest) (anc : Path) (w : World σ τ)
    (ih : ∀ via path (w : World σ τ), Good A w (fun d => candHandle d (t :: args) via path) (handleCommand A (t :: args) via path w))
    (next : World σ τ → Res σ τ) (hnext : ∀ w, next w = handleCommand A (t :: args) true anc w) :
    Good A w (fun d => candEntries d (t :: args) (fun m' kids' => candHandle d (t :: args) false ((m', kids') :: (m, kids) :: anc)) 0 kids
        ++ (candHandle d (t :: args) true anc).map (fun x => ((entries kids).length :: x.1, x.2)))
      (goOn w (scanEntries A (t :: args) (fun m' kids' w => handleCommand A (t :: args) false ((m', kids') :: (m, kids) :: anc) w) kids w) next) := by
  refine good_goOn A (good_scanEntries A t args _ (fun d m' kids' => candHandle d (t :: args) false ((m', kids') :: (m, kids) :: anc)) ?_ kids 0 w) ?_
  · intro m' k' w; exact ih _ _ w
  · intro w' _ _
    rw [hnext]
    exact good_map A _ (ih _ _ w')

theorem good_handleCommand (toks : List Str) : ∀ (via : Bool) (path : Path) (w : World σ τ),
    Good A w (fun d => candHandle d toks via path) (handleCommand A toks via path w) := by
  induction toks with
  | nil =>
    intro via path w
    cases path with
    | nil => exact good_notFound A w _
    | cons mk anc =>
      obtain ⟨m, kids⟩ := mk
      simp only [handleCommand]
      split
      · exact good_notFound A w _
      · exact good_error A w _ _
  | cons t rest ih =>
    intro via path w
    cases path with
    | nil => exact good_notFound A w _
    | cons mk anc =>
      obtain ⟨m, kids⟩ := mk
      simp only [handleCommand]
      by_cases hd : w.dis m.id = true
      · rw [if_pos hd]; exact good_notFound A w _
      · rw [if_neg hd]
        by_cases hn : t = m.name ∨ (via = true ∧ t = bs!"..")
        · rw [if_pos hn]
          by_cases hr : rest = []
          · rw [if_pos hr]
            have hin : ∀ d : Id → Bool, d m.id ≠ true → ([], Target.menu ((m, kids) :: anc)) ∈ candHandle d (t :: rest) via ((m, kids) :: anc) := by
              intro d hd
              simp only [candHandle, if_neg hd, if_pos hn, if_pos hr, List.mem_singleton]
            intro w' o h
            cases h
            exact ⟨fun _ => rfl, rfl, rfl, rfl, fun h => absurd rfl h, [], by simp, by simp, by simp,
              fun _ => .inr ⟨rfl, [], m, kids, anc, hin _ hd, rfl⟩, fun _ => .inr ⟨[], m, kids, anc, hin _ (by simp [allOn]), rfl⟩, by simp⟩
          · rw [if_neg hr]
            cases rest with
            | nil => exact absurd rfl hr
            | cons t' args =>
              have := good_inside A t' args m kids anc w ih (fun w => handleCommand A (t' :: args) true anc w) (fun _ => rfl)
              -- the designations of this menu are among those of `candHandle` only if it is not disabled
              intro w' o h
              obtain ⟨a1, a2, a3, a4, a5, evs, a6, a7, a8, a9, a10, a11⟩ := this w' o h
              have e : ∀ d : Id → Bool, d m.id ≠ true → candHandle d (t :: t' :: args) via ((m, kids) :: anc) =
                  candEntries d (t' :: args) (fun m' kids' => candHandle d (t' :: args) false ((m', kids') :: (m, kids) :: anc)) 0 kids
                  ++ (candHandle d (t' :: args) true anc).map (fun x => ((entries kids).length :: x.1, x.2)) := by
                intro d hd
                rw [candHandle, if_neg hd, if_pos hn, if_neg hr]
              refine ⟨a1, a2, a3, a4, a5, evs, a6, ?_, ?_, ?_, ?_, a11⟩
              · intro ev hev
                simp only [e allOn (by simp [allOn])]; exact a7 ev hev
              · intro ev hev
                simp only [e w.dis hd]; exact a8 ev hev
              · intro hev
                simp only [e w.dis hd]; exact a9 hev
              · simp only [e allOn (by simp [allOn])]; exact a10
        · rw [if_neg hn]; exact good_notFound A w _

/-- Whatever the handlers do: every handler that is called is designated by the tokens (the first one in the menus as they are
    at the beginning, later ones -- after one has thrown `bad_cast` -- if one ignores that menus are disabled). -/
theorem good_scanCmds (toks : List Str) (ht : toks ≠ []) (path : Path) (w : World σ τ) :
    Good A w (fun d => cands d toks path) (scanCmds A toks path w) := by
  cases path with
  | nil => exact good_notFound A w _
  | cons mk anc =>
    obtain ⟨m, kids⟩ := mk
    simp only [scanCmds]
    by_cases hd : w.dis m.id = true
    · rw [if_pos hd]; exact good_notFound A w _
    · rw [if_neg hd]
      cases toks with
      | nil => exact absurd rfl ht
      | cons t args =>
        have := good_inside A t args m kids anc w (good_handleCommand A (t :: args))
          (fun w => if t :: args = [] then .error (.ub .assertion) else handleCommand A (t :: args) true anc w) (fun _ => by simp)
        intro w' o h
        obtain ⟨a1, a2, a3, a4, a5, evs, a6, a7, a8, a9, a10, a11⟩ := this w' o h
        have e : ∀ d : Id → Bool, d m.id ≠ true → cands d (t :: args) ((m, kids) :: anc) =
            candEntries d (t :: args) (fun m' kids' => candHandle d (t :: args) false ((m', kids') :: (m, kids) :: anc)) 0 kids
            ++ (candHandle d (t :: args) true anc).map (fun x => ((entries kids).length :: x.1, x.2)) := by
          intro d hd
          rw [cands, if_neg hd]
        refine ⟨a1, a2, a3, a4, a5, evs, a6, ?_, ?_, ?_, ?_, a11⟩
        · intro ev hev
          simp only [e allOn (by simp [allOn])]; exact a7 ev hev
        · intro ev hev
          simp only [e w.dis hd]; exact a8 ev hev
        · intro hev
          simp only [e w.dis hd]; exact a9 hev
        · simp only [e allOn (by simp [allOn])]; exact a10

end
end Verif
