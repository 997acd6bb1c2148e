import Verif.Proofs.Frame
import Verif.Proofs.HistoryOps
import Verif.Props.FromString
import Verif.Props.History
import Verif.Spec.Bang

set_option linter.unusedSimpArgs false
set_option linter.unusedVariables false

/-!
# Re-execution of history entries
-/

namespace Verif
open Spec
open FromString (Value)
open History (WF listing)
open Props (entriesNewestFirst)

variable {σ τ : Type}

/-! ### Faults of the search -/

/-- The faults of a search: those of conversions, of iterators, and of destroyed menus. -/
def SearchFault (f : Fault) : Prop := f ≠ .stackOverflow ∧ f ≠ .ub .outOfRange ∧ f ≠ .ub .emptyContainer

theorem searchFault_conv {f : Fault} (h : ConvFault f) : SearchFault f := by
  obtain ⟨p, ty, s, u, hu, rfl⟩ := h
  rcases Props.C07_conversion_ub_partial p ty s u hu with ⟨rfl, _⟩ | ⟨rfl, _⟩ <;> simp [SearchFault]

theorem convert_searchFault (p : Platform) (ps : List Param) : ∀ (args : List Str) (u : UB), convert p ps args = .error (.ub u) → SearchFault (.ub u) := by
  induction ps with
  | nil =>
    intro args u h
    cases args with
    | nil => cases h
    | cons a args => simp only [convert] at h; cases h; simp [SearchFault]
  | cons q qs ih =>
    intro args u h
    cases args with
    | nil => simp only [convert] at h; cases h; simp [SearchFault]
    | cons a args =>
      simp only [convert, bind, Except.bind] at h
      split at h
      · rename_i he; cases h; exact searchFault_conv ⟨p, q.ty, a, u, he, rfl⟩
      · split at h
        · rename_i he; cases h; exact ih _ _ he
        · cases h

section
variable (A : App σ τ)

theorem execCmd_fault (c : Cmd) (toks : List Str) (w : World σ τ) (f : Fault) (h : execCmd A c toks w = .error f) : SearchFault f := by
  unfold execCmd at h
  split at h
  · cases h
  · split at h
    · split at h
      · cases h
      · split at h
        · cases h; simp [SearchFault]
        · split at h
          · split at h
            · cases h
            · cases h
            · cases h
            · rename_i he; cases h; exact convert_searchFault _ _ _ _ he
            · split at h <;> cases h
          · cases h
    · split at h
      · cases h; simp [SearchFault]
      · split at h
        · split at h <;> cases h
        · cases h

theorem goOn_fault {w : World σ τ} {r : Res σ τ} {next : World σ τ → Res σ τ} {f : Fault} (h : goOn w r next = .error f)
    (h1 : r = .error f → SearchFault f) (h2 : ∀ w', next w' = .error f → SearchFault f) : SearchFault f := by
  unfold goOn at h
  split at h
  · split at h
    · exact h2 _ h
    · cases h; simp [SearchFault]
  · exact h1 h

theorem scanEntries_fault (toks : List Str) (sub : MenuInfo → Forest → World σ τ → Res σ τ) (fo : Forest)
    (hs : ∀ m k w f, sub m k w = .error f → SearchFault f) : ∀ w f, scanEntries A toks sub fo w = .error f → SearchFault f := by
  induction fo with
  | nil => intro w f h; cases h
  | cmd c rest ih => intro w f h; exact goOn_fault h (execCmd_fault A _ _ _ _) (fun _ h => ih _ _ h)
  | menu m k rest _ ih => intro w f h; exact goOn_fault h (hs _ _ _ _) (fun _ h => ih _ _ h)

theorem handle_fault (toks : List Str) : ∀ (via : Bool) (path : Path) (w : World σ τ) (f : Fault), handleCommand A toks via path w = .error f → SearchFault f := by
  induction toks with
  | nil =>
    intro via path w f h
    cases path with
    | nil => cases h
    | cons mk anc =>
      obtain ⟨m, k⟩ := mk
      simp only [handleCommand] at h
      split at h <;> cases h
      simp [SearchFault]
  | cons t rest ih =>
    intro via path w f h
    cases path with
    | nil => cases h
    | cons mk anc =>
      obtain ⟨m, k⟩ := mk
      simp only [handleCommand] at h
      split at h
      · cases h
      · split at h
        · split at h
          · cases h
          · exact goOn_fault h (scanEntries_fault A _ _ _ (fun _ _ _ _ h => ih _ _ _ _ h) _ _) (fun _ h => ih _ _ _ _ h)
        · cases h

theorem scanCurrent_fault (toks : List Str) (w : World σ τ) (f : Fault) (h : scanCurrent A toks w = .error f) : SearchFault f := by
  unfold scanCurrent at h
  split at h
  · cases h; simp [SearchFault]
  · rename_i path _
    cases path with
    | nil => cases h
    | cons mk anc =>
      obtain ⟨m, k⟩ := mk
      simp only [scanCmds] at h
      split at h
      · cases h
      · refine goOn_fault h (scanEntries_fault A _ _ _ (fun _ _ _ _ h => handle_fault A _ _ _ _ _ h) _ _) (fun _ h => ?_)
        split at h
        · cases h; simp [SearchFault]
        · exact handle_fault A _ _ _ _ _ h

/-- The faults of one level of `Feed`. -/
theorem feed_level_fault (fuel : Nat) {line : Str} {toks : List Str} (hl : Lex.Line line toks) (ht : toks ≠ []) (w : World σ τ) (f : Fault)
    (h : feed A (fuel + 1) line w = .error f) :
    SearchFault f ∨ History.newCommand w.hist line = .error f ∨
    ∃ h1, History.newCommand w.hist line = .ok h1 ∧ (History.getCommands h1 = .error f ∨
      ∃ n, GlobalLine toks (.bang n) ∧ (History.forgetLatest h1 = .error f ∨ ∃ h2, History.forgetLatest h1 = .ok h2 ∧
        (History.at h2 n = .error f ∨ ∃ c, History.at h2 n = .ok (some c) ∧
          feed A fuel c { (w.entered h1).note (.builtin (.bang n)) with hist := h2 } = .error f))) := by
  rw [feed_eq A hl ht] at h
  split at h
  · rename_i hh; cases h; exact .inr (.inl hh)
  · rename_i h1 hh
    have hb := catchAll_fault A line _ f h
    replace hb : fallback A line toks (scanGlobal A (feed A fuel) toks (w.entered h1)) = .error f := hb
    have husr : ∀ w2 o, fallback A line toks (.ok (w2, o)) = .error f → SearchFault f := by
      intro w2 o hu
      cases o with
      | found => cases hu
      | thrown e => cases hu
      | notFound =>
        simp only [fallback, userPart] at hu
        split at hu
        · split at hu <;> cases hu
        · exact scanCurrent_fault A _ _ _ hu
    rcases scanGlobal_cases A (feed A fuel) toks ht (w.entered h1) with ⟨hn, hg⟩ | ⟨hn, hg, _⟩ | ⟨rfl, hg⟩ | ⟨rfl, hg⟩ | ⟨rfl, hg⟩ | ⟨arg, n, rfl, hs1, hs2, hg⟩ <;> rw [hg] at hb
    · exact .inl (husr _ _ hb)
    · cases hb; exact .inl (by simp [SearchFault])
    · unfold helpPart at hb
      cases he : helpCmd ((w.entered h1).note (.builtin .help)) with
      | error f' =>
        rw [he] at hb; cases hb
        unfold helpCmd at he
        split at he
        · cases he; exact .inl (by simp [SearchFault])
        · cases he
      | ok w2 => rw [he] at hb; exact .inl (husr _ _ hb)
    · unfold exitPart at hb
      cases he : exitSession A ((w.entered h1).note (.builtin .exit)) with
      | error f' =>
        rw [he] at hb; cases hb
        refine .inr (.inr ⟨h1, hh, .inl ?_⟩)
        rw [exitSession_eq] at he
        split at he
        · cases he
        · rename_i fe _
          split at he
          · cases he
          · rename_i w2 hc
            split at he
            · cases he
            · rename_i w3 hc2
              split at he
              · rename_i hgc
                cases he
                have e1 : w2.hist = h1 := by
                  have : (callAction fe .exitSession ((w.entered h1).note (.builtin .exit))).1.hist = h1 := by
                    simp only [callAction]
                    rw [(effect_same _ _).1.hist]; rfl
                  replace hc : callAction fe .exitSession ((w.entered h1).note (.builtin .exit)) = (w2, none) := hc
                  rw [hc] at this; exact this
                have e2 : w3.hist = w2.hist := by
                  have : (optAction A.exitGlobal .exitGlobal w2).1.hist = w2.hist := by
                    unfold optAction
                    split
                    · rfl
                    · simp only [callAction]; rw [(effect_same _ _).1.hist]; rfl
                  rw [hc2] at this; exact this
                rw [e2, e1] at hgc
                exact hgc
              · split at he <;> cases he
      | ok v => obtain ⟨w2, x2⟩ := v; rw [he] at hb; exact .inl (husr _ _ hb)
    · exact .inl (husr _ _ hb)
    · unfold bangPart at hb
      refine (Classical.em (SearchFault f)).imp_right fun hns => .inr ⟨h1, hh, .inr ⟨n, .bang hs1 hs2, ?_⟩⟩
      cases hf : History.forgetLatest (w.entered h1).hist with
      | error f' => rw [hf] at hb; cases hb; exact .inl hf
      | ok h2 =>
        refine .inr ⟨h2, hf, ?_⟩
        rw [hf] at hb
        simp only at hb
        cases ha : History.at h2 n with
        | error f' => rw [ha] at hb; cases hb; exact .inl rfl
        | ok r =>
          rw [ha] at hb
          cases r with
          | none => exact absurd (husr _ _ hb) hns
          | some c =>
            refine .inr ⟨c, rfl, ?_⟩
            simp only at hb
            cases hfd : feed A fuel c { (w.entered h1).note (.builtin (.bang n)) with hist := h2 } with
            | error f' => rw [hfd] at hb; cases hb; rfl
            | ok v => obtain ⟨w2, x2⟩ := v; rw [hfd] at hb; exact absurd (husr _ _ hb) hns

/-- Everything but `Feed` itself leaves the history alone. -/
theorem closed_hist : Closed A (fun w w' => w'.hist = w.hist) where
  refl := fun w => rfl
  trans := fun h1 h2 => h2.trans h1
  handler := fun c vals w => (effect_same w _).1.hist
  note := fun w e _ => rfl
  put := fun w s => rfl
  exception := fun f hf w l e => (effect_same w _).1.hist
  wrong := fun f hf w l => (effect_same w _).1.hist
  exitSession := fun f hf w => (effect_same w _).1.hist
  exitGlobal := fun f hf w => (effect_same w _).1.hist
  enterSession := fun f hf w => (effect_same w _).1.hist
  enterGlobal := fun f hf w => (effect_same w _).1.hist
  enter := fun w i hi => rfl
  saved := fun w _ _ => rfl
  unsaved := fun w _ => rfl

end

/-! ### Histories without `!` lines -/

namespace History

/-- Number of entries ever recorded (those dropped included, the line being edited not). -/
def base (h : History) : Nat := h.idOfOldest + (entriesNewestFirst h).length

/-- No entry is a `! n` line. -/
def BangFree (h : History) : Prop := ∀ l ∈ entriesNewestFirst h, ¬ BangLine l

theorem entries_inserting {h : History} (hm : h.mode = .inserting) : entriesNewestFirst h = h.buffer := by
  unfold Props.entriesNewestFirst; rw [hm]

theorem entries_browsing {h : History} (hm : h.mode = .browsing) : entriesNewestFirst h = h.buffer.tail := by
  unfold Props.entriesNewestFirst; rw [hm]

/-- Entering a command that is not the newest entry. -/
theorem new_fresh {h h1 : History} (hw : WF h) {line : Str} (hn : newCommand h line = .ok h1) (hne : (entriesNewestFirst h).head? ≠ some line) :
    h1.mode = .inserting ∧ h1.maxSize = h.maxSize ∧ h1.commands = h.commands + 1 ∧ h1.buffer = (line :: entriesNewestFirst h).take h.maxSize ∧ h1.idOfOldest + h1.buffer.length = base h + 1 := by
  have hb := hw.bound
  unfold newCommand at hn
  cases hm : h.mode with
  | inserting =>
    rw [entries_inserting hm] at hne ⊢
    simp only [hm] at hn
    rw [if_pos (by simpa using hne)] at hn
    cases hn
    refine ⟨rfl, insert_maxSize _ _, insert_commands _ _, insert_buffer ⟨h.maxSize, h.buffer, 0, h.commands + 1, .inserting, h.idOfOldest⟩ hb _, ?_⟩
    have := insert_nextId ⟨h.maxSize, h.buffer, 0, h.commands + 1, .inserting, h.idOfOldest⟩ line
    unfold nextId at this
    unfold base
    rw [entries_inserting hm]
    exact this
  | browsing =>
    have hc := hw.browse hm
    rw [entries_browsing hm] at hne ⊢
    simp only [hm] at hn
    unfold base
    rw [entries_browsing hm]
    cases hbuf : h.buffer with
    | nil => rw [hbuf] at hc; simp at hc
    | cons x rest =>
      rw [hbuf] at hn hne hb
      simp only [List.tail_cons] at hne
      simp only [if_neg hne] at hn
      cases hn
      refine ⟨rfl, rfl, rfl, ?_, by simp; omega⟩
      simp only [List.tail_cons]
      rw [List.take_of_length_le (by simpa using hb)]

/-- Entering any command. -/
theorem new_any {h h1 : History} (hw : WF h) {line : Str} (hn : newCommand h line = .ok h1) :
    (∀ l ∈ h1.buffer, l = line ∨ l ∈ entriesNewestFirst h) ∧ base h ≤ h1.idOfOldest + h1.buffer.length := by
  by_cases hne : (entriesNewestFirst h).head? = some line
  · obtain ⟨h2, h3⟩ := Props.C24_repetition_not_stored h h1 line hne hn
    refine ⟨fun l hl => .inr (h2 ▸ hl), ?_⟩
    have hid : h1.idOfOldest = h.idOfOldest := by
      unfold newCommand at hn
      cases hm : h.mode with
      | inserting =>
        rw [entries_inserting hm] at hne
        simp only [hm] at hn
        rw [if_neg (by simpa using hne)] at hn
        cases hn; rfl
      | browsing =>
        simp only [hm] at hn
        split at hn
        · cases hn
        · split at hn <;> (cases hn; rfl)
    rw [h2, hid]; exact Nat.le_refl _
  · obtain ⟨_, _, _, h4, h5⟩ := new_fresh hw hn hne
    refine ⟨?_, by omega⟩
    intro l hl
    rw [h4] at hl
    have := List.mem_of_mem_take hl
    simpa using this

/-- Entering a `! n` line in a history without such lines: what is left after it has been forgotten. -/
theorem bang_forget {h h1 h2 : History} (hw : WF h) {line : Str} (hn : newCommand h line = .ok h1) (hne : (entriesNewestFirst h).head? ≠ some line)
    (hf : forgetLatest h1 = .ok h2) :
    WF h2 ∧ h2.mode = .inserting ∧ h2.maxSize = h.maxSize ∧ h2.commands = h.commands + 1 ∧ h2.buffer = (entriesNewestFirst h).take (h.maxSize - 1) ∧ base h2 = base h := by
  obtain ⟨a1, a2, a3, a4, a5⟩ := new_fresh hw hn hne
  obtain ⟨h1', b1, b2, _⟩ := newCommand_ok hw line
  rw [hn] at b1; cases b1
  obtain ⟨c1, c2, c3⟩ := forget_wf b2 a1 hf
  unfold forgetLatest at hf
  split at hf
  · cases hf
  · rename_i x rest hbuf
    cases hf
    refine ⟨c1, c3, c2.trans a2, a3, ?_, ?_⟩
    · cases hm : h.maxSize with
      | zero => rw [a4, hm] at hbuf; simp at hbuf
      | succ k =>
        rw [a4, hm] at hbuf
        simp only [List.take_succ_cons, List.cons.injEq] at hbuf
        simpa using hbuf.2.symm
    · rw [hbuf] at a5
      simp only [List.length_cons] at a5
      unfold base
      rw [entries_inserting c3]
      simp only
      unfold base at a5
      omega

/-- Looking up in a history in which something was recorded is defined. -/
theorem at_safe {h : History} (hm : h.mode = .inserting) (hb : 1 ≤ base h) (n : Nat) (f : Fault) : History.at h n ≠ .error f := by
  intro he
  have hne : h.idOfOldest + h.buffer.length ≠ 0 := by
    unfold base at hb; rw [entries_inserting hm] at hb; omega
  by_cases hc : ∃ c, (n, c) ∈ listing h
  · obtain ⟨c, hc⟩ := hc
    rw [(at_listing h hne n c).2 hc] at he; cases he
  · rw [(at_none h hne n).2 (fun c h => hc ⟨c, h⟩)] at he; cases he

theorem at_mem {h : History} {n : Nat} {c : Str} (ha : History.at h n = .ok (some c)) : c ∈ h.buffer := by
  unfold History.at at ha
  split at ha
  · cases ha
  · split at ha
    · cases ha
    · rename_i he; cases ha; exact List.mem_of_getElem? he

end History

/-- No line is both. -/
theorem bang_toks {line : Str} {toks : List Str} (hl : Lex.Line line toks) (hb : ¬ BangLine line) (n : Nat) : ¬ GlobalLine toks (.bang n) :=
  fun h => hb ⟨toks, n, hl, h⟩

end Verif
