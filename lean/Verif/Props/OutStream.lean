import Verif.Spec.Broadcast

set_option linter.unusedSimpArgs false

/-!
# Property C60: `Cli::cout()`
-/

namespace Verif.Props
open Spec OutStream

/-- Nothing registered, nothing written. -/
def blank : St := ⟨[], fun _ => ⟨[], true, 0, b%' '⟩, []⟩

theorem upd_all (f : Stream → Stream) (l : List Nat) (hl : l.Nodup) : ∀ (s : St), (l.foldl (fun s k => s.upd k f) s).regs = s.regs ∧ (l.foldl (fun s k => s.upd k f) s).live = s.live ∧
    ∀ k, (l.foldl (fun s k => s.upd k f) s).streams k = if k ∈ l then f (s.streams k) else s.streams k := by
  induction l with
  | nil => intro s; simp
  | cons a l ih =>
    intro s
    obtain ⟨hn, hl⟩ := List.nodup_cons.1 hl
    obtain ⟨h1, h2, h3⟩ := ih hl (s.upd a f)
    refine ⟨h1, h2, fun k => ?_⟩
    rw [List.foldl_cons, h3]
    by_cases hk : k = a
    · subst hk; simp [hn, St.upd]
    · simp [St.upd, hk]

/-- The registered streams are those of the live sessions, which are apart, and the streams are in order. -/
structure Tidy (s : St) (live : List (Nat × Nat)) : Prop where
  live : s.live.Perm live
  regs : s.regs = s.live.map (·.2)
  ids : (s.live.map (·.1)).Nodup
  nodup : (s.live.map (·.2)).Nodup
  good : ∀ k, (s.streams k).good = true ∧ (s.streams k).width = 0

theorem find_live {l : List (Nat × Nat)} {i : Nat} (h1 : (l.map (·.1)).Nodup) (h2 : (l.map (·.2)).Nodup) :
    (l.find? (fun p => p.1 == i) = none ∧ l.filter (fun p => p.1 != i) = l) ∨
    ∃ k, l.find? (fun p => p.1 == i) = some (i, k) ∧ (l.map (·.2)).filter (fun j => j != k) = (l.filter (fun p => p.1 != i)).map (·.2) := by
  induction l with
  | nil => exact .inl ⟨rfl, rfl⟩
  | cons p l ih =>
    obtain ⟨a, b⟩ := p
    simp only [List.map_cons, List.nodup_cons] at h1 h2
    by_cases ha : a = i
    · subst ha
      refine .inr ⟨b, by simp, ?_⟩
      have e1 : l.filter (fun p => p.1 != a) = l := by
        rw [List.filter_eq_self]
        intro p hp
        simp only [bne_iff_ne, ne_eq]
        exact fun e => h1.1 (List.mem_map.2 ⟨p, hp, e⟩)
      have e2 : (l.map (·.2)).filter (fun j => j != b) = l.map (·.2) := by
        rw [List.filter_eq_self]
        intro p hp
        simp only [bne_iff_ne, ne_eq]
        exact fun e => h2.1 (e ▸ hp)
      simp [e1, e2]
    · rcases ih h1.2 h2.2 with ⟨k1, k2⟩ | ⟨k, k1, k2⟩
      · exact .inl ⟨by simp [ha, k1], by simp [ha, k2]⟩
      · refine .inr ⟨k, by simp [ha, k1], ?_⟩
        have hb : b ≠ k := by
          rintro rfl
          have := List.mem_of_find?_eq_some k1
          exact h2.1 (List.mem_map.2 ⟨_, this, rfl⟩)
        simp [ha, hb, k2]

theorem cout_text (ops : List Op) : ∀ (s : St) (live : List (Nat × Nat)), Tidy s live → Apart live ops → (∀ k g w, .tune k g w ∉ ops) → ∀ k,
    ((run s ops).streams k).text = (s.streams k).text ++ hears k live ops := by
  induction ops with
  | nil => intro s live _ _ _ k; simp [run, hears]
  | cons op ops ih =>
    intro s live T ha ht k
    have hmem : ∀ k, k ∈ s.regs ↔ k ∈ live.map (·.2) := by
      intro k; rw [T.regs]; exact (T.live.map _).mem_iff
    have ht' : ∀ k g w, Op.tune k g w ∉ ops := fun k g w h => ht k g w (by simp [h])
    have hnd : s.regs.Nodup := by rw [T.regs]; exact T.nodup
    have one : ∀ s' live', Tidy s' live' → Apart live' ops → ((run s' ops).streams k).text = (s'.streams k).text ++ hears k live' ops := fun s' live' T' h' => ih s' live' T' h' ht' k
    show ((run (step s op) ops).streams k).text = _
    cases op with
    | create i j =>
      obtain ⟨a1, a2, a3⟩ := ha
      rw [one (step s (.create i j)) ((i, j) :: live) _ a3]
      · rfl
      · refine ⟨?_, by simp [step, T.regs], ?_, ?_, T.good⟩
        · exact (List.perm_append_singleton _ _).trans (T.live.cons _)
        · simp only [step, List.map_append, List.map_cons, List.map_nil]
          refine List.nodup_append.2 ⟨T.ids, by simp, ?_⟩
          intro x hx y hy
          simp at hy; subst hy
          rintro rfl
          exact a1 ((T.live.map _).mem_iff.1 hx)
        · simp only [step, List.map_append, List.map_cons, List.map_nil]
          refine List.nodup_append.2 ⟨T.nodup, by simp, ?_⟩
          intro x hx y hy
          simp at hy; subst hy
          rintro rfl
          exact a2 ((T.live.map _).mem_iff.1 hx)
    | destroy i =>
      have hp : (s.live.filter (fun p => p.1 != i)).Perm (live.filter (fun p => p.1 ≠ i)) := by
        have := T.live.filter (fun p => p.1 != i)
        have e : (fun p : Nat × Nat => p.1 != i) = (fun p => decide (p.1 ≠ i)) := by
          funext p; by_cases h : p.1 = i <;> simp [h]
        rw [e] at this ⊢
        exact this
      have hsub : (s.live.filter (fun p => p.1 != i)).Sublist s.live := List.filter_sublist
      rcases find_live (i := i) T.ids T.nodup with ⟨k1, k2⟩ | ⟨j, k1, k2⟩
      · have hstep : step s (.destroy i) = s := by simp [step, k1]
        rw [hstep, one s (live.filter (fun p => p.1 ≠ i)) _ ha]
        · rfl
        · rw [k2] at hp
          exact ⟨hp, T.regs, T.ids, T.nodup, T.good⟩
      · have hstep : step s (.destroy i) = { s with regs := s.regs.filter (fun x => x != j), live := s.live.filter (fun p => p.1 != i) } := by simp [step, k1]
        rw [hstep, one _ (live.filter (fun p => p.1 ≠ i)) _ ha]
        · rfl
        · exact ⟨hp, by simp only [T.regs, k2], (hsub.map _).nodup T.ids, (hsub.map _).nodup T.nodup, T.good⟩
    | write t =>
      obtain ⟨h1, h2, h3⟩ := upd_all (sputn t) s.regs hnd s
      have T' : Tidy (step s (.write t)) live := by
        refine ⟨by rw [show (step s (.write t)).live = s.live from h2]; exact T.live, ?_, by rw [show (step s (.write t)).live = s.live from h2]; exact T.ids,
          by rw [show (step s (.write t)).live = s.live from h2]; exact T.nodup, ?_⟩
        · rw [show (step s (.write t)).live = s.live from h2, show (step s (.write t)).regs = s.regs from h1, T.regs]
        · intro k
          rw [show (step s (.write t)).streams k = _ from h3 k]
          split
          · exact T.good k
          · exact T.good k
      rw [one _ live T' ha, show (step s (.write t)).streams k = _ from h3 k]
      simp only [hears, ← hmem]
      split <;> simp [sputn]
    | putc c =>
      obtain ⟨h1, h2, h3⟩ := upd_all (insertChar c) s.regs hnd s
      have T' : Tidy (step s (.putc c)) live := by
        refine ⟨by rw [show (step s (.putc c)).live = s.live from h2]; exact T.live, ?_, by rw [show (step s (.putc c)).live = s.live from h2]; exact T.ids,
          by rw [show (step s (.putc c)).live = s.live from h2]; exact T.nodup, ?_⟩
        · rw [show (step s (.putc c)).live = s.live from h2, show (step s (.putc c)).regs = s.regs from h1, T.regs]
        · intro k
          rw [show (step s (.putc c)).streams k = _ from h3 k]
          split
          · simp [insertChar, (T.good k).1]
          · exact T.good k
      rw [one _ live T' ha, show (step s (.putc c)).streams k = _ from h3 k]
      simp only [hears, ← hmem]
      split <;> simp [insertChar, (T.good k).1, (T.good k).2]
    | own j t =>
      have T' : Tidy (step s (.own j t)) live := by
        refine ⟨T.live, T.regs, T.ids, T.nodup, ?_⟩
        intro k
        simp only [step, St.upd]
        split
        · exact T.good k
        · exact T.good k
      rw [one _ live T' ha]
      simp only [step, St.upd, hears]
      by_cases hk : k = j
      · simp [hk, sputn]
      · simp [hk, show ¬ j = k from fun e => hk e.symm]
    | tune j g w => exact absurd (by simp) (ht j g w)

/-- **C60** (part) For all sequences of creations and destructions of sessions and of output: if no two live sessions share a stream, and the streams are in good state (with no field width set), every stream gets its
    private output and exactly the texts written to `Cli::cout()` while a session on it is alive, in order. Missing: shared streams, and streams in other states (refuted below). -/
theorem C60_cout_partial (ops : List Op) (ha : Apart [] ops) (ht : ∀ k g w, .tune k g w ∉ ops) (k : Nat) : ((run blank ops).streams k).text = hears k [] ops := by
  have := cout_text ops blank [] ⟨.refl _, rfl, by simp [blank], by simp [blank], fun _ => ⟨rfl, rfl⟩⟩ ha ht k
  rw [this]; rfl

example : Apart [] [.create 1 10, .write bs!"a", .create 2 20, .own 20 bs!"x", .write bs!"b", .putc b%'\n', .destroy 1, .write bs!"c", .create 3 10, .write bs!"d"] ∧
    hears 10 [] [.create 1 10, .write bs!"a", .create 2 20, .own 20 bs!"x", .write bs!"b", .putc b%'\n', .destroy 1, .write bs!"c", .create 3 10, .write bs!"d"] = bs!"ab\nd" ∧
    hears 20 [] [.create 1 10, .write bs!"a", .create 2 20, .own 20 bs!"x", .write bs!"b", .putc b%'\n', .destroy 1, .write bs!"c", .create 3 10, .write bs!"d"] = bs!"xb\ncd" := by
  refine ⟨?_, by decide, by decide⟩
  simp [Apart]

/-- **C60** Refuted: of two sessions on the same stream, the one that is destroyed takes the registration of the other one along, which gets nothing of what is written from then on. -/
theorem C60_shared_stream_refuted (i j k : Nat) (hij : i ≠ j) (t : Str) (c : Byte) : (i, k) ∈ (run blank [.create i k, .create j k, .destroy j, .write t, .putc c]).live ∧
    ((run blank [.create i k, .create j k, .destroy j, .write t, .putc c]).streams k).text = [] := by
  have hb : (i == j) = false := by simpa using hij
  simp [run, step, blank, List.find?, hb, hij]

/-- **C60** Refuted: while both are alive, the texts appear twice. -/
theorem C60_twice_refuted (i j k : Nat) (t : Str) : ((run blank [.create i k, .create j k, .write t]).streams k).text = t ++ t := by
  simp [run, step, blank, St.upd, sputn]

/-- **C60** Refuted: characters inserted one by one (`std::endl` among them) are subject to the state of the stream, texts are not: with a field width, the character is preceded by blanks, and on a stream that has failed it is lost,
    while texts still appear. -/
theorem C60_state_refuted (i k w : Nat) (t u : Str) (c : Byte) :
    ((run blank [.create i k, .tune k true w, .write t, .putc c, .write u]).streams k).text = t ++ List.replicate (w - 1) b%' ' ++ [c] ++ u ∧
    ((run blank [.create i k, .tune k false w, .write t, .putc c, .write u]).streams k).text = t ++ u := by
  simp [run, step, blank, St.upd, sputn, insertChar]

example : ((run blank [.create 1 10, .tune 10 true 3, .write bs!"a", .putc b%'\n', .write bs!"b"]).streams 10).text = bs!"a  \nb" ∧
    ((run blank [.create 1 10, .tune 10 false 3, .write bs!"a", .putc b%'\n', .write bs!"b"]).streams 10).text = bs!"ab" := by decide

end Verif.Props
