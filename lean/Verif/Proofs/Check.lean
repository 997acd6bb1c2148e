import Verif.Proofs.Feed

/-!
# Deciding the specification of what a line designates

For the concrete cases beside the theorems: `cands` enumerates what a line designates.
-/

namespace Verif
open Spec

def cleanB (p : Platform) (c : Cmd) (args : List Str) : Bool :=
  match c.kind with
  | .freeform => true
  | .variadic ps => args.length != ps.length || (ps.zip args).all fun x =>
      match FromString.fromString p x.1.ty x.2 with
      | .error .bad => true
      | .error _ => false
      | .ok _ => true

theorem cleanB_clean {p : Platform} {c : Cmd} {args : List Str} (h : cleanB p c args = true) : CleanArgs p c args := by
  intro ps hk hl q a hq e he
  unfold cleanB at h
  rw [hk] at h
  simp only [hl, bne_self_eq_false, Bool.false_or, List.all_eq_true] at h
  have := h (q, a) hq
  rw [he] at this
  cases e <;> simp_all

theorem cleanLine_of {p : Platform} {dis : Id → Bool} {path : Path} {toks : List Str}
    (h : (cands dis toks path).all (fun x => match x.2 with | .cmd c args => cleanB p c args | .menu _ => true) = true) :
    CleanLine p dis path toks := by
  intro c args hd
  obtain ⟨cs, hm⟩ := (designatesCmd_iff _ _ _ _ _).1 hd
  rw [List.all_eq_true] at h
  exact cleanB_clean (h _ hm)

def refusedB (p : Platform) : Target → Bool
  | .menu _ => false
  | .cmd c args => match verdict p c args with
    | .run _ => false
    | _ => true

theorem refusedB_iff (p : Platform) (t : Target) : refusedB p t = true ↔ Refused p t := by
  cases t with
  | menu q => simp [refusedB, Refused]
  | cmd c args =>
    simp only [refusedB, Refused]
    cases hv : verdict p c args with
    | run vals =>
      simp only [Bool.false_eq_true, false_iff]
      exact fun h => h vals ((verdict_run p c args vals).1 hv)
    | reject => simp only [true_iff]; intro vals ha; rw [(verdict_run p c args vals).2 ha] at hv; cases hv
    | raise e => simp only [true_iff]; intro vals ha; rw [(verdict_run p c args vals).2 ha] at hv; cases hv
    | crash u => simp only [true_iff]; intro vals ha; rw [(verdict_run p c args vals).2 ha] at hv; cases hv

theorem chosen_of {p : Platform} {dis : Id → Bool} {path : Path} {toks : List Str} {t : Target}
    (h : ((cands dis toks path).find? (fun x => !refusedB p x.2)).map (·.2) = some t) : Chosen p dis path toks t := by
  cases hf : (cands dis toks path).find? (fun x => !refusedB p x.2) with
  | none => rw [hf] at h; cases h
  | some x =>
    rw [hf] at h
    cases h
    obtain ⟨hr, pre, post, heq, hpre⟩ := List.find?_eq_some_iff_append.1 hf
    have hmem : x ∈ cands dis toks path := by rw [heq]; simp
    obtain ⟨he, hd⟩ := (mem_cands _ _ _ _).1 hmem
    refine ⟨he, x.1, hd, ?_, ?_⟩
    · rw [← refusedB_iff]; simpa using hr
    · intro cs' x' hd' hlt
      have hm' : (cs', x') ∈ cands dis toks path := (mem_cands _ _ _ _).2 ⟨he, hd'⟩
      have hs := sorted_cands dis toks path
      rw [heq] at hm' hs
      rw [List.mem_append, List.mem_cons] at hm'
      rcases hm' with hm' | hm' | hm'
      · have := hpre _ hm'
        rw [← refusedB_iff]
        simpa using this
      · exfalso
        subst hm'
        exact lex_irrefl _ hlt
      · exfalso
        rw [List.pairwise_append, List.pairwise_cons] at hs
        have := hs.2.1.1 _ hm'
        exact lex_irrefl _ (lex_trans hlt this)

end Verif
