import Verif.Proofs.Dispatch

set_option linter.unusedSimpArgs false

/-!
# The search begins with the first designation that is not rejected, whatever handlers do
-/

namespace Verif
open Spec
open FromString (Value ConvErr)

variable {σ τ : Type}

section
variable (A : App σ τ)

/-- The search `r` in the state `w` with the designations `L`: if all are rejected, nothing is found; otherwise, unless the handler of the
    first one that is not rejected throws `bad_cast`, the result is that of this designation. -/
def Starts (w : World σ τ) (r : Res σ τ) (L : List Cand) : Prop :=
  ((∀ x ∈ L, Rejected A.plat x) → r = .ok (w, .notFound)) ∧
  (∀ pre x post, L = pre ++ x :: post → (∀ y ∈ pre, Rejected A.plat y) → ¬ Rejected A.plat x →
    (∀ w', take A x.2 w ≠ .ok (w', .notFound)) → r = take A x.2 w)

theorem starts_nil (w : World σ τ) : Starts A w (.ok (w, .notFound)) [] := by
  refine ⟨fun _ => rfl, ?_⟩
  intro pre x post h
  simp at h

theorem starts_goOn {w : World σ τ} {r : Res σ τ} {L1 L2 : List Cand} {next : World σ τ → Res σ τ} (h1 : Starts A w r L1) (h2 : Starts A w (next w) L2) :
    Starts A w (goOn w r next) (L1 ++ L2) := by
  have hnext : (∀ x ∈ L1, Rejected A.plat x) → goOn w r next = next w := by
    intro h; rw [h1.1 h]; simp [goOn]
  refine ⟨?_, ?_⟩
  · intro hall
    rw [hnext (fun x hx => hall x (by simp [hx]))]
    exact h2.1 (fun x hx => hall x (by simp [hx]))
  · intro pre x post hL hpre hx htake
    rw [List.append_eq_append_iff] at hL
    rcases hL with ⟨l, hp, hL2⟩ | ⟨l, hL1, hp⟩
    · -- the first part is rejected
      subst hp
      rw [hnext (fun y hy => hpre y (by simp [hy]))]
      exact h2.2 l x post hL2 (fun y hy => hpre y (by simp [hy])) hx htake
    · cases l with
      | nil =>
        simp only [List.nil_append, List.append_nil] at hL1 hp
        rw [hnext (by rw [hL1]; exact hpre)]
        exact h2.2 [] x post hp.symm (by simp) hx htake
      | cons y l =>
        simp only [List.cons_append, List.cons.injEq] at hp
        obtain ⟨rfl, rfl⟩ := hp
        rw [h1.2 pre x l hL1 hpre hx htake]
        cases ht : take A x.2 w with
        | error f => rfl
        | ok v =>
          obtain ⟨w1, o⟩ := v
          cases o with
          | found => rfl
          | thrown e => rfl
          | notFound => exact absurd ht (htake w1)

theorem starts_map {w : World σ τ} {r : Res σ τ} {L : List Cand} (n : Nat) (h : Starts A w r L) : Starts A w r (L.map (fun x => (n :: x.1, x.2))) := by
  have hrej : ∀ x : Cand, Rejected A.plat (n :: x.1, x.2) ↔ Rejected A.plat x := fun x => Iff.rfl
  refine ⟨?_, ?_⟩
  · intro hall
    apply h.1
    intro x hx
    exact (hrej x).1 (hall _ (by simp only [List.mem_map]; exact ⟨x, hx, rfl⟩))
  · intro pre x post hL hpre hx htake
    rw [List.map_eq_append_iff] at hL
    obtain ⟨l1, l2, rfl, rfl, h2⟩ := hL
    rw [List.map_eq_cons_iff] at h2
    obtain ⟨y, l3, rfl, rfl, rfl⟩ := h2
    exact h.2 l1 y l3 rfl (fun z hz => (hrej z).1 (hpre _ (by simp only [List.mem_map]; exact ⟨z, hz, rfl⟩))) hx htake

theorem starts_perform (w : World σ τ) (i : Nat) (c : Cmd) (args : List Str) : Starts A w (perform A c args w) [([i], .cmd c args)] := by
  refine ⟨?_, ?_⟩
  · intro hall
    obtain ⟨c', args', h1, h2⟩ := hall _ (List.mem_singleton.2 rfl)
    cases h1
    simp [perform, h2]
  · intro pre x post hL hpre hx htake
    cases pre with
    | nil => simp only [List.nil_append, List.cons.injEq] at hL; rw [← hL.1]; rfl
    | cons y pre => simp at hL

theorem starts_scanEntries (w : World σ τ) (t : Str) (args : List Str) (sub : MenuInfo → Forest → World σ τ → Res σ τ) (csub : MenuInfo → Forest → List Cand)
    (hs : ∀ m k, Starts A w (sub m k w) (csub m k)) (f : Forest) :
    ∀ i, Starts A w (scanEntries A (t :: args) sub f w) (candEntries w.dis (t :: args) csub i f) := by
  induction f with
  | nil => intro i; exact starts_nil A w
  | cmd c rest ih =>
    intro i
    simp only [scanEntries, candEntries]
    refine starts_goOn A ?_ (ih (i + 1))
    rw [execCmd_eq]
    split
    · exact starts_perform A w i c args
    · exact starts_nil A w
  | menu m kids rest _ ih =>
    intro i
    simp only [scanEntries, candEntries]
    exact starts_goOn A (starts_map A i (hs m kids)) (ih (i + 1))

theorem starts_handleCommand (w : World σ τ) (toks : List Str) (ht : toks ≠ []) : ∀ (via : Bool) (path : Path),
    Starts A w (handleCommand A toks via path w) (candHandle w.dis toks via path) := by
  induction toks with
  | nil => exact absurd rfl ht
  | cons t rest ih =>
    intro via path
    cases path with
    | nil => exact starts_nil A w
    | cons mk anc =>
      obtain ⟨m, kids⟩ := mk
      simp only [handleCommand, candHandle]
      by_cases hd : w.dis m.id = true
      · rw [if_pos hd, if_pos hd]; exact starts_nil A w
      · rw [if_neg hd, if_neg hd]
        by_cases hn : t = m.name ∨ (via = true ∧ t = bs!"..")
        · rw [if_pos hn, if_pos hn]
          by_cases hr : rest = []
          · rw [if_pos hr, if_pos hr]
            refine ⟨?_, ?_⟩
            · intro hall
              obtain ⟨c, args, h1, _⟩ := hall _ (List.mem_singleton.2 rfl)
              cases h1
            · intro pre x post hL hpre hx htake
              cases pre with
              | nil => simp only [List.nil_append, List.cons.injEq] at hL; rw [← hL.1]; rfl
              | cons y pre => simp at hL
          · rw [if_neg hr, if_neg hr]
            cases rest with
            | nil => exact absurd rfl hr
            | cons t' args =>
              exact starts_goOn A (starts_scanEntries A w t' args _ _ (fun m' k' => ih hr false _) kids 0) (starts_map A _ (ih hr true anc))
        · rw [if_neg hn, if_neg hn]; exact starts_nil A w

theorem starts_scanCmds (w : World σ τ) (toks : List Str) (ht : toks ≠ []) (path : Path) :
    Starts A w (scanCmds A toks path w) (cands w.dis toks path) := by
  cases path with
  | nil => exact starts_nil A w
  | cons mk anc =>
    obtain ⟨m, kids⟩ := mk
    simp only [scanCmds, cands]
    by_cases hd : w.dis m.id = true
    · rw [if_pos hd, if_pos hd]; exact starts_nil A w
    · rw [if_neg hd, if_neg hd]
      cases toks with
      | nil => exact absurd rfl ht
      | cons t args =>
        refine starts_goOn A (starts_scanEntries A w t args _ _ (fun m' k' => starts_handleCommand A w _ ht false _) kids 0) ?_
        rw [if_neg ht]
        exact starts_map A _ (starts_handleCommand A w _ ht true anc)

/-- In any list, either all are rejected or there is a first one that is not. -/
theorem first_or_none (p : Platform) (L : List Cand) : (∀ x ∈ L, Rejected p x) ∨
    ∃ pre x post, L = pre ++ x :: post ∧ (∀ y ∈ pre, Rejected p y) ∧ ¬ Rejected p x := by
  induction L with
  | nil => exact .inl (by simp)
  | cons x L ih =>
    by_cases hx : Rejected p x
    · rcases ih with h | ⟨pre, y, post, rfl, h2, h3⟩
      · exact .inl (List.forall_mem_cons.2 ⟨hx, h⟩)
      · exact .inr ⟨x :: pre, y, post, rfl, List.forall_mem_cons.2 ⟨hx, h2⟩, h3⟩
    · exact .inr ⟨[], x, L, rfl, by simp, hx⟩

/-- Does an `Exec` with this result go on searching? -/
def Cmd.Swallows (c : Cmd) (x : Option Exn) : Prop := c.kind ≠ .freeform ∧ ∃ what, x = some (.badCast what)

theorem perform_run' (c : Cmd) (args : List Str) (vals : List Value) (w : World σ τ) (hv : verdict A.plat c args = .run vals)
    (hb : ¬ c.Swallows (A.handler c.fn w.app vals).exn) :
    perform A c args w = match (A.handler c.fn w.app vals).exn with
      | none => .ok ((w.effect (A.handler c.fn w.app vals)).note (.ran c vals w.snap (A.handler c.fn w.app vals).exn), .found)
      | some e => .ok ((w.effect (A.handler c.fn w.app vals)).note (.ran c vals w.snap (A.handler c.fn w.app vals).exn), .thrown e) := by
  simp only [perform, hv, callHandler]
  cases hx : (A.handler c.fn w.app vals).exn with
  | none => rfl
  | some e =>
    cases e with
    | badCast s =>
      cases hk : c.kind with
      | freeform => rfl
      | variadic ps => exact absurd ⟨by simp [hk], s, hx⟩ hb
    | std s => rfl
    | other => rfl

end
end Verif
