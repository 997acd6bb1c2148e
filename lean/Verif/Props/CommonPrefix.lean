import Verif.Model.CommonPrefix
import Mathlib.Tactic.Tauto

/-!
# Property C38: longest common prefix
-/

namespace Verif.Props
open Verif.Completion

theorem minElement_spec (rest : List Str) : ∀ best, minElement best rest ∈ best :: rest ∧
    ∀ x ∈ best :: rest, (minElement best rest).length ≤ x.length := by
  induction rest with
  | nil => intro best; simp [minElement]
  | cons s rest ih =>
    intro best
    simp only [minElement]
    split
    · rename_i h
      obtain ⟨h1, h2⟩ := ih s
      refine ⟨by simp only [List.mem_cons] at h1 ⊢; tauto, ?_⟩
      intro x hx
      simp only [List.mem_cons] at hx
      rcases hx with rfl | hx | hx
      · have := h2 s (by simp); omega
      · exact h2 x (by simp [hx])
      · exact h2 x (by simp [hx])
    · rename_i h
      obtain ⟨h1, h2⟩ := ih best
      refine ⟨by simp only [List.mem_cons] at h1 ⊢; tauto, ?_⟩
      intro x hx
      simp only [List.mem_cons] at hx
      rcases hx with rfl | rfl | hx
      · exact h2 x (by simp)
      · have := h2 best (by simp); omega
      · exact h2 x (by simp [hx])

theorem allHave_spec (c : Byte) (i : Nat) (v : List Str) (h : ∀ x ∈ v, i < x.length) :
    ∃ r, allHave c i v = .ok r ∧ (r = true ↔ ∀ x ∈ v, x[i]? = some c) := by
  induction v with
  | nil => exact ⟨true, rfl, by simp⟩
  | cons x rest ih =>
    have hx : i < x.length := h x (by simp)
    obtain ⟨r, hr, hr2⟩ := ih (fun y hy => h y (by simp [hy]))
    simp only [allHave, charAt, hx, dite_true, bind, Except.bind]
    by_cases e : x[i] = c
    · refine ⟨r, by simp [e, hr], ?_⟩
      rw [hr2]
      simp [List.getElem?_eq_getElem hx, e]
    · refine ⟨false, by simp [e], ?_⟩
      simp [List.getElem?_eq_getElem hx, e]

theorem prefix_snoc {p x : Str} {c : Byte} (h : p <+: x) (hc : x[p.length]? = some c) : p ++ [c] <+: x := by
  obtain ⟨t, rfl⟩ := h
  rw [List.getElem?_append_right (Nat.le_refl _), Nat.sub_self] at hc
  cases t with
  | nil => simp at hc
  | cons d t =>
    simp at hc; subst hc
    exact ⟨t, by simp⟩

theorem prefixLoop_spec (v : List Str) (smin : Str) (hs : smin ∈ v) (hmin : ∀ x ∈ v, smin.length ≤ x.length) :
    ∀ (rest pre : Str), smin = pre ++ rest → (∀ x ∈ v, pre <+: x) →
    ∃ p, prefixLoop v rest pre.length pre = .ok p ∧ (∀ x ∈ v, p <+: x) ∧ ∀ q, (∀ x ∈ v, q <+: x) → q <+: p := by
  intro rest
  induction rest with
  | nil =>
    intro pre he hp
    refine ⟨pre, rfl, hp, ?_⟩
    intro q hq
    have := hq smin hs
    simpa [he] using this
  | cons c rest ih =>
    intro pre he hp
    have hlen : ∀ x ∈ v, pre.length < x.length := by
      intro x hx
      have := hmin x hx
      rw [he] at this; simp at this; omega
    obtain ⟨r, hr, hr2⟩ := allHave_spec c pre.length v hlen
    simp only [prefixLoop, hr, bind, Except.bind]
    cases r with
    | true =>
      have hall := hr2.1 rfl
      have := ih (pre ++ [c]) (by simp [he]) (fun x hx => prefix_snoc (hp x hx) (hall x hx))
      simpa using this
    | false =>
      refine ⟨pre, rfl, hp, ?_⟩
      intro q hq
      by_cases hl : q.length ≤ pre.length
      · exact List.prefix_of_prefix_length_le (hq smin hs) (hp smin hs) hl
      · exfalso
        have hn : ¬ ∀ x ∈ v, x[pre.length]? = some c := fun h => by simpa using hr2.2 h
        apply hn
        intro x hx
        have h1 : q[pre.length]? = smin[pre.length]? := by
          obtain ⟨t, ht⟩ := hq smin hs
          rw [← ht, List.getElem?_append_left (by omega)]
        have h2 : q[pre.length]? = x[pre.length]? := by
          obtain ⟨t, ht⟩ := hq x hx
          rw [← ht, List.getElem?_append_left (by omega)]
        rw [← h2, h1, he]
        simp

/-- **C38** The result for a non-empty list of candidates is a prefix of all of them, and every common prefix of all of them is a prefix of it;
    in particular no access is out of range. -/
theorem C38_longest_common_prefix (v : List Str) (hv : v ≠ []) :
    ∃ p, commonPrefix v = .ok p ∧ (∀ x ∈ v, p <+: x) ∧ ∀ q, (∀ x ∈ v, q <+: x) → q <+: p := by
  cases v with
  | nil => exact absurd rfl hv
  | cons s rest =>
    obtain ⟨h1, h2⟩ := minElement_spec rest s
    exact prefixLoop_spec (s :: rest) _ h1 h2 _ [] rfl (fun x _ => List.nil_prefix)

example : commonPrefix [bs!"hello", bs!"help", bs!"hel"] = .ok bs!"hel" ∧ commonPrefix [bs!"a", bs!"b"] = .ok [] := ⟨by rfl, by rfl⟩

end Verif.Props
