import Verif.Proofs.TreePath
import Verif.Proofs.Tree
import Verif.Props.Dispatch

set_option linter.unusedSimpArgs false

/-!
# Properties C14, C15, C20: removed menus and commands, navigation, destroyed menus
-/

namespace Verif.Props
open Spec
open FromString (Value)

variable {σ τ : Type} (A : App σ τ)

/-! ### C14 -/

/-- **C14** Removing an object by its handle takes this object and everything in it out of the menus, and nothing else; flags are not changed. -/
theorem C14_remove_exact (w : World σ τ) (hw : TreeWF w.tree w.used) (id : Id) (hid : id ∈ w.tree.kids.ids) :
    (∀ i, i ∈ (w.act (.remove id)).tree.ids ↔ i ∈ w.tree.ids ∧ i ∉ w.tree.kids.under id) ∧ (w.act (.remove id)).dis = w.dis ∧
      id ∈ w.tree.kids.under id := by
  have hn := hw.nodup
  simp only [Tree.WF, Tree.ids, List.nodup_cons] at hn
  refine ⟨?_, by simp only [World.act, if_pos hid], Forest.under_self hid⟩
  simp only [World.act, if_pos hid]
  intro i
  simp only [Tree.remove, Tree.ids, List.mem_cons, Forest.mem_remove hn.2]
  constructor
  · rintro (rfl | ⟨h1, h2⟩)
    · exact ⟨.inl rfl, fun h => hn.1 (Forest.under_ids h)⟩
    · exact ⟨.inr h1, h2⟩
  · rintro ⟨rfl | h1, h2⟩
    · exact .inl rfl
    · exact .inr ⟨h1, h2⟩

theorem sample_wf : TreeWF Sample.world.tree Sample.world.used := ⟨by unfold Tree.WF; decide, fun _ h => h⟩

example : Sample.world.tree.kids.under 3 = [3, 4, 10, 12, 13] := by decide
example : (Sample.world.act (.remove 3)).tree.ids = [0, 1, 2, 5, 6, 7, 8, 9, 11] := by decide

/-- Well-formedness of the menus holds in every state of every execution. -/
theorem C14_menus_wf {w w' : World σ τ} (h : Exec A (fun _ => True) (fun _ => True) w w') (hw : TreeWF w.tree w.used) : TreeWF w'.tree w'.used := by
  have := exec_closed (closed_kept stable_wf A.only_true) (fun w a ha h => ⟨stable_act stable_wf w a ha h, [], by simp [(act_same w a).2.1], by simp⟩)
    (fun w io => kept_same rfl rfl rfl) (fun w io => kept_same rfl rfl rfl) h
  exact (this hw).1

/-- An object that is gone stays gone, in every execution, and no handler call is of it. -/
theorem gone_forever {w w' : World σ τ} (h : Exec A (fun _ => True) (fun _ => True) w w') (i : Id) (hg : Gone i w.tree w.used) :
    Gone i w'.tree w'.used ∧ ∃ evs, w'.log = w.log ++ evs ∧ ∀ c v s e, .ran c v s e ∈ evs → c.id ≠ i := by
  induction h with
  | refl => exact ⟨hg, [], by simp, by simp⟩
  | @feed w1 w2 fuel line x _ hf ih =>
    obtain ⟨g1, e1, l1, r1⟩ := ih
    obtain ⟨g2, e2, l2, r2⟩ := closed_feed (closed_kept (stable_gone i) A.only_true) (fun w h => kept_same rfl rfl rfl) _ _ _ _ _ hf g1
    obtain ⟨e3, l3, r3, _⟩ := C09_handlers_designated_partial A _ _ _ _ _ hf
    have : e3 = e2 := List.append_cancel_left (l3.symm.trans l2)
    subst this
    refine ⟨g2, e1 ++ e3, by rw [l2, l1, List.append_assoc], ?_⟩
    intro c v s e hm
    rcases List.mem_append.1 hm with hm | hm
    · exact r1 c v s e hm
    · rintro rfl
      obtain ⟨u, _, hnot⟩ := r2 c v s e hm
      obtain ⟨l, _, toks, args, path, _, hp, ⟨_, ws, q, _, hwalk, hcon, _⟩, _⟩ := r3 c v s e hm
      have hsub := Tree.sub_walk (Tree.locate_sub hp) hwalk
      cases q with
      | nil => exact hcon
      | cons mk anc =>
        obtain ⟨m, k⟩ := mk
        exact hnot ((Tree.sub_ids hsub).2 _ (Forest.entry_cmd_ids hcon))
  | @act w1 a _ _ ih =>
    obtain ⟨g1, e1, l1, r1⟩ := ih
    exact ⟨stable_act (stable_gone i) _ a trivial g1, e1, by rw [(act_same w1 a).2.1, l1], r1⟩
  | prompt _ hq ih =>
    obtain ⟨g1, e1, l1, r1⟩ := ih
    unfold Verif.prompt at hq
    split at hq
    · cases hq; exact ⟨g1, e1, l1, r1⟩
    · split at hq
      · cases hq; exact ⟨g1, e1, l1, r1⟩
      · cases hq
  | up _ _ _ ih => exact ih
  | down _ _ ih => exact ih
  | @enter w1 _ ih =>
    obtain ⟨g1, e1, l1, r1⟩ := ih
    obtain ⟨g2, _⟩ := closed_enter (closed_kept (stable_gone i) A.only_true) w1 g1
    have hq : ∃ e2, (enterSession A w1).1.log = w1.log ++ e2 ∧ ∀ e ∈ e2, isRan e = false := by
      unfold enterSession
      have q1 := quiet_optAction A.enterGlobal .enterGlobal rfl w1
      split
      · rename_i he; rw [he] at q1; exact q1
      · rename_i w2 he
        rw [he] at q1
        exact quiet_trans q1 (quiet_optAction A.enterSession .enterSession rfl w2)
    obtain ⟨e2, l2, q2⟩ := hq
    refine ⟨g2, e1 ++ e2, by rw [l2, l1, List.append_assoc], ?_⟩
    intro c v s e hm
    rcases List.mem_append.1 hm with hm | hm
    · exact r1 c v s e hm
    · have := q2 _ hm; cases this
  | exit _ hx ih =>
    obtain ⟨g1, e1, l1, r1⟩ := ih
    obtain ⟨g2, _⟩ := closed_exit (closed_kept (stable_gone i) A.only_true) _ _ _ hx g1
    obtain ⟨e2, l2, q2⟩ := quiet_exit A _ _ _ hx
    refine ⟨g2, e1 ++ e2, by rw [l2, l1, List.append_assoc], ?_⟩
    intro c v s e hm
    rcases List.mem_append.1 hm with hm | hm
    · exact r1 c v s e hm
    · have := q2 _ hm; cases this

/-- **C14** After the removal of an object, in every later execution (lines fed, menus and commands inserted, removed, enabled, disabled by handlers or from outside) no
    handler of the removed command, or of any command in the removed menu, is called. -/
theorem C14_removed_never_runs (w w' : World σ τ) (hw : TreeWF w.tree w.used) (id : Id) (hid : id ∈ w.tree.kids.ids)
    (h : Exec A (fun _ => True) (fun _ => True) (w.act (.remove id)) w') :
    ∃ evs, w'.log = w.log ++ evs ∧ ∀ c v s e, .ran c v s e ∈ evs → c.id ∉ w.tree.kids.under id := by
  have hrm := C14_remove_exact w hw id hid
  have hgone : ∀ i ∈ w.tree.kids.under id, Gone i (w.act (.remove id)).tree (w.act (.remove id)).used := by
    intro i hi
    refine ⟨?_, fun hm => ((hrm.1 i).1 hm).2 hi⟩
    have hu : i ∈ w.used := hw.used i (by simp only [Tree.ids, List.mem_cons]; exact .inr (Forest.under_ids hi))
    simp only [World.act, if_pos hid]
    exact hu
  have hlog : (w.act (.remove id)).log = w.log := (act_same w (.remove id)).2.1
  obtain ⟨_, evs, l, _⟩ := gone_forever A h id (hgone id hrm.2.2)
  refine ⟨evs, by rw [l, hlog], ?_⟩
  intro c v s e hm hc
  obtain ⟨_, evs', l', r'⟩ := gone_forever A h c.id (hgone _ hc)
  have : evs' = evs := List.append_cancel_left (l'.symm.trans l)
  subst this
  exact r' c v s e hm rfl

/-- **C14** … and all uses of handles to these objects have no effect. -/
theorem C14_handles_inert (w w' : World σ τ) (hw : TreeWF w.tree w.used) (id : Id) (hid : id ∈ w.tree.kids.ids)
    (h : Exec A (fun _ => True) (fun _ => True) (w.act (.remove id)) w') (i : Id) (hi : i ∈ w.tree.kids.under id) :
    w'.act (.enable i) = w' ∧ w'.act (.disable i) = w' ∧ w'.act (.remove i) = w' := by
  have hrm := C14_remove_exact w hw id hid
  have hg : Gone i (w.act (.remove id)).tree (w.act (.remove id)).used := by
    refine ⟨?_, fun hm => ((hrm.1 i).1 hm).2 hi⟩
    have hu : i ∈ w.used := hw.used i (by simp only [Tree.ids, List.mem_cons]; exact .inr (Forest.under_ids hi))
    simp only [World.act, if_pos hid]
    exact hu
  obtain ⟨⟨_, hg'⟩, _⟩ := gone_forever A h i hg
  have hk : i ∉ w'.tree.kids.ids := fun h => hg' (by simp [Tree.ids, h])
  simp only [World.act, if_neg hg', if_neg hk, and_self]

example : ((((Sample.world.act (.remove 3)).act (.insert 0 (.cmd (Sample.cmd 20 bs!"sub" .freeform 20) .nil))).act (.disable 4)).act (.enable 3)).tree.ids =
    [0, 1, 2, 5, 6, 7, 8, 9, 11, 20] := by decide

theorem chosen_iff_find {p : Platform} {dis : Id → Bool} {path : Path} {toks : List Str} {t : Target} :
    Chosen p dis path toks t ↔ ((cands dis toks path).map (·.2)).find? (fun x => !refusedB p x) = some t := by
  constructor
  · intro h
    cases hf : ((cands dis toks path).map (·.2)).find? (fun x => !refusedB p x) with
    | none =>
      exfalso
      obtain ⟨he, cs, hd, hr, _⟩ := h
      rw [List.find?_eq_none] at hf
      have := hf t (List.mem_map.2 ⟨(cs, t), (mem_cands _ _ _ _).2 ⟨he, hd⟩, rfl⟩)
      rw [← refusedB_iff] at hr
      simp_all
    | some t' =>
      have : Chosen p dis path toks t' := by
        apply chosen_of
        rw [List.find?_map] at hf
        exact hf
      rw [chosen_unique h this]
  · intro h
    apply chosen_of
    rw [List.find?_map] at h
    exact h

theorem refusedB_rm (p : Platform) (id : Id) (t : Target) : refusedB p (rmTarget id t) = refusedB p t := by
  cases t <;> rfl

/-- **C14** Every other command is unaffected: in a menu that still exists a line runs, after the removal, the same command with the same arguments as if the removed object
    were disabled instead. (For what it means that something is disabled see C13.) -/
theorem C14_removed_as_disabled (p : Platform) (w : World σ τ) (hw : TreeWF w.tree w.used) (id : Id) (hid : id ∈ w.tree.kids.ids) (path : Path)
    (hp : w.tree.locate w.current = some path) (hout : ∀ x ∈ path, x.1.id ≠ id) :
    ∃ path', (w.act (.remove id)).tree.locate w.current = some path' ∧
      ∀ toks,
        (∀ c args, Chosen p w.dis path' toks (.cmd c args) ↔ Chosen p (alsoOff id w.dis) path toks (.cmd c args)) ∧
        (∀ c args, DesignatesCmd w.dis path' toks c args ↔ DesignatesCmd (alsoOff id w.dis) path toks c args) ∧
        (∀ m k q, Chosen p (alsoOff id w.dis) path toks (.menu ((m, k) :: q)) → ∃ k' q', Chosen p w.dis path' toks (.menu ((m, k') :: q'))) := by
  refine ⟨rmPath id path, ?_, ?_⟩
  · simp only [World.act, if_pos hid]
    exact tree_locate_remove hw.nodup hp hout
  · intro toks
    have hc := cands_remove id w.dis toks path hout
    have hfind : ∀ t, ((cands w.dis toks (rmPath id path)).map (·.2)).find? (fun x => !refusedB p x) = some t ↔
        ∃ t', ((cands (alsoOff id w.dis) toks path).map (·.2)).find? (fun x => !refusedB p x) = some t' ∧ rmTarget id t' = t := by
      intro t
      rw [hc, List.find?_map]
      simp only [Function.comp_def, refusedB_rm, Option.map_eq_some_iff]
    refine ⟨?_, ?_, ?_⟩
    · intro c args
      rw [chosen_iff_find, chosen_iff_find, hfind]
      constructor
      · rintro ⟨t', h1, h2⟩
        cases t' with
        | cmd c' args' => cases h2; exact h1
        | menu q => cases h2
      · intro h; exact ⟨_, h, rfl⟩
    · intro c args
      rw [designatesCmd_iff, designatesCmd_iff]
      have hmem : ∀ (L : List Cand) (t : Target), (∃ cs, (cs, t) ∈ L) ↔ t ∈ L.map (·.2) := by
        intro L t
        simp only [List.mem_map]
        constructor
        · rintro ⟨cs, h⟩; exact ⟨_, h, rfl⟩
        · rintro ⟨⟨cs, t'⟩, h, rfl⟩; exact ⟨cs, h⟩
      rw [hmem, hmem, hc, List.mem_map]
      constructor
      · rintro ⟨t', h1, h2⟩
        cases t' with
        | cmd c' args' => cases h2; exact h1
        | menu q => cases h2
      · intro h; exact ⟨_, h, rfl⟩
    · intro m k q h
      refine ⟨k.remove id, rmPath id q, ?_⟩
      rw [chosen_iff_find] at h ⊢
      rw [hfind]
      exact ⟨_, h, rfl⟩

theorem des_mono {dis dis' : Id → Bool} (h : ∀ i, dis' i = false → dis i = false) {p : Path} {toks : List Str} {cs : List Nat} {x : Target}
    (hd : Des dis' p toks cs x) : Des dis p toks cs x := by
  have hs : ∀ {p t i q}, StepAt dis' p t i q → StepAt dis p t i q := by
    intro p t i q hs
    cases hs with
    | down h1 h2 => exact .down h1 (h _ h2)
    | up h1 h2 => exact .up (h _ h1) h2
  induction hd with
  | here h1 h2 => exact .here h1 (h _ h2)
  | enter h1 => exact .enter (hs h1)
  | step h1 _ ih => exact .step (hs h1) ih

/-- **C14** In particular a line that ran a command without involving the removed object (the walk, by the choices `cs`, exists also with the
    object disabled) runs the same command after the removal, and no line designates a command that it did not designate before. -/
theorem C14_others_unaffected (p : Platform) (w : World σ τ) (hw : TreeWF w.tree w.used) (id : Id) (hid : id ∈ w.tree.kids.ids) (path : Path)
    (hp : w.tree.locate w.current = some path) (hout : ∀ x ∈ path, x.1.id ≠ id) :
    ∃ path', (w.act (.remove id)).tree.locate w.current = some path' ∧
      (∀ toks cs c args, Enabled w.dis path → Des (alsoOff id w.dis) path toks cs (.cmd c args) → ¬ Refused p (.cmd c args) →
        (∀ cs' x', Des w.dis path toks cs' x' → Lex cs' cs → Refused p x') → Chosen p w.dis path' toks (.cmd c args)) ∧
      (∀ toks c args, DesignatesCmd w.dis path' toks c args → DesignatesCmd w.dis path toks c args) := by
  have hoff : ∀ i, alsoOff id w.dis i = false → w.dis i = false := by
    intro i hi
    simp only [alsoOff, Bool.or_eq_false_iff] at hi
    exact hi.2
  obtain ⟨path', h1, h2⟩ := C14_removed_as_disabled p w hw id hid path hp hout
  refine ⟨path', h1, ?_, ?_⟩
  · intro toks cs c args hen hd hr hf
    refine ((h2 toks).1 c args).2 ⟨?_, cs, hd, hr, fun cs' x' hd' hlt => hf cs' x' (des_mono hoff hd') hlt⟩
    cases path with
    | nil => exact hen
    | cons x anc =>
      obtain ⟨m, k⟩ := x
      simp only [Enabled] at hen ⊢
      rw [alsoOff_ne (hout (m, k) (by simp))]
      exact hen
  · intro toks c args hd
    obtain ⟨he, ws, q, ht, hwalk, hcon, hen⟩ := ((h2 toks).2.1 c args).1 hd
    refine ⟨?_, ws, q, ht, ?_, hcon, hoff _ hen⟩
    · cases path with
      | nil => exact he
      | cons x anc => exact hoff _ he
    · obtain ⟨ms, hv, hms⟩ := (walk_via _ _ _ _).1 hwalk
      exact (walk_via _ _ _ _).2 ⟨ms, hv, fun m hm => hoff _ (hms m hm)⟩

/-- After the removal of `sub`, and of the first `add`, from the sample menus. -/
example : (feed Sample.tame 1 bs!"add 1 2" ((Sample.world.act (.remove 3)).act (.remove 1))).map (fun r => calls r.1.log) =
    .ok [(Sample.addStr, [.str bs!"1", .str bs!"2"])] := by rfl
example : (feed Sample.tame 1 bs!"sub go" ((Sample.world.act (.remove 3)).act (.remove 1))).map (fun r => (calls r.1.log, wrongs r.1.log)) =
    .ok ([], [bs!"sub go"]) := by rfl

/-! ### C15 -/

/-- The prompt text: possibly coloured. -/
def PromptText (prompt : Str) (s : Str) : Prop :=
  ∃ a b, (a = [] ∨ a = bs!"\x1b[32m\x1b[1m") ∧ (b = [] ∨ b = bs!"\x1b[0m") ∧ s = a ++ prompt ++ b ++ bs!"> "

/-- **C15** If the line designates a menu (and this designation is the first usable one), then this menu becomes the current one, nothing else happens, and the prompt is
    this menu's. -/
theorem C15_enter (fuel : Nat) (w : World σ τ) (hw : TreeWF w.tree w.used) (line : Str) (toks : List Str) (path : Path) (hr : Ready A w line toks path)
    (m : MenuInfo) (k : Forest) (q : Path) (hc : Chosen A.plat w.dis path toks (.menu ((m, k) :: q))) :
    ∃ w', feed A (fuel + 1) line w = .ok (w', none) ∧ w'.current = m.id ∧ w'.tree.locate w'.current = some ((m, k) :: q) ∧
      w'.log = w.log ∧ w'.io = w.io ∧ w'.tree = w.tree ∧ w'.dis = w.dis ∧ w'.app = w.app ∧ w'.used = w.used ∧ w'.exit = w.exit ∧ History.WF w'.hist ∧
      (w'.exit = false → ∃ w'' s, prompt w' = .ok w'' ∧ w''.io.out = w.io.out ++ s ∧ PromptText m.prompt s) := by
  obtain ⟨h, hh, hwf, _⟩ := History.newCommand_ok hr.hist line
  rcases feed_cases A hr.tokens hr.user fuel w hh hr.here hr.clean with ⟨_, h2, _⟩ | ⟨m', k', q', h1, h2⟩ | ⟨c, args, vals, h1, _⟩
  · exfalso
    obtain ⟨he, cs, hd, _⟩ := hc
    exact h2 _ ((designatesMenu_iff _ _ _ _).2 ⟨cs, (mem_cands _ _ _ _).2 ⟨he, hd⟩⟩)
  · cases chosen_unique hc h1
    obtain ⟨he, cs, hd, _⟩ := hc
    obtain ⟨_, _, hwalk⟩ := (designatesMenu_iff _ _ _ _).2 ⟨cs, (mem_cands _ _ _ _).2 ⟨he, hd⟩⟩
    have hsub := Tree.sub_walk (Tree.locate_sub hr.here) hwalk
    have hloc := Tree.sub_locate hw.nodup hsub
    refine ⟨_, h2, rfl, hloc, rfl, rfl, rfl, rfl, rfl, rfl, rfl, hwf, ?_⟩
    intro hex
    simp only [Verif.prompt, hex, Bool.false_eq_true, if_false]
    have hl' : ({ w.entered h with current := m.id } : World σ τ).tree.locate ({ w.entered h with current := m.id } : World σ τ).current =
      some ((m, k) :: q) := hloc
    rw [hl']
    simp only
    have e1 : decimal 32 = bs!"32" := by rw [decimal]; simp [decimal]
    have e2 : decimal 1 = bs!"1" := by rw [decimal]; simp [decimal]
    have e3 : decimal 0 = bs!"0" := by rw [decimal]; simp [decimal]
    have key : ∀ io : Io, ∃ s, (((io.beforePrompt.put m.prompt).afterPrompt).put bs!"> ").out = io.out ++ s ∧ PromptText m.prompt s := by
      intro io
      cases hcol : io.style.color
      · cases hf : (io.style.forced || io.style.tty)
        · refine ⟨m.prompt ++ bs!"> ", ?_, [], [], .inl rfl, .inl rfl, by simp⟩
          simp [Io.beforePrompt, hcol, Io.afterPrompt, Io.put, Io.sgr, hf]
        · refine ⟨m.prompt ++ bs!"\x1b[0m" ++ bs!"> ", ?_, [], bs!"\x1b[0m", .inl rfl, .inr rfl, by simp⟩
          simp [Io.beforePrompt, hcol, Io.afterPrompt, Io.put, Io.sgr, hf, e3]
      · refine ⟨bs!"\x1b[32m\x1b[1m" ++ m.prompt ++ bs!"\x1b[0m" ++ bs!"> ", ?_, bs!"\x1b[32m\x1b[1m", bs!"\x1b[0m", .inr rfl, .inr rfl, by simp⟩
        simp [Io.beforePrompt, hcol, Io.afterPrompt, Io.put, Io.sgr, Io.force, e1, e2, e3]
    obtain ⟨s, hs1, hs2⟩ := key w.io
    exact ⟨{ w.entered h with current := m.id, io := _ }, s, if_neg (by simpa using hex), hs1, hs2⟩
  · cases chosen_unique hc h1

example : (feed Sample.app 1 bs!"sub deep" Sample.world).map (fun r => (r.1.current, (prompt r.1).map (fun w => w.io.out))) = .ok (12, .ok bs!"deep> ") := by rfl

/-- **C15** (partial; missing: user code that throws `bad_cast`, see `C15_refuted_bad_cast`) If the current menu changes, then the line (or a history entry executed by `!`) designates the new one. -/
theorem C15_changes_only_if_designated_partial (hA : A.Tame) (fuel : Nat) (line : Str) (w w' : World σ τ) (x : Option Exn) (h : feed A fuel line w = .ok (w', x))
    (hne : w'.current ≠ w.current) :
    ∃ l ∈ line :: w.hist.buffer, ∃ toks path m k q, Lex.Line l toks ∧ w.tree.locate w.current = some path ∧
      DesignatesMenu w.dis path toks ((m, k) :: q) ∧ w'.current = m.id ∧ ∃ evs, w'.log = w.log ++ evs ∧ calls evs = [] := by
  obtain ⟨evs, h1, h2⟩ := feed_tame A hA fuel line w w' x h
  rcases h2 with ⟨_, h⟩ | ⟨l, hl, toks, path, m, k, q, hc, hln, hp, hd, hcur⟩ | ⟨l, hl, toks, path, c, args, vals, _, _, _, _, _, hcur⟩
  · exact absurd h hne
  · exact ⟨l, hl, toks, path, m, k, q, hln, hp, hd, hcur, evs, h1, hc⟩
  · exact absurd hcur hne

theorem entries_index {f : Forest} {e : Entry} (h : e ∈ entries f) : ∃ i : Nat, (entries f)[i]? = some e := List.mem_iff_getElem?.1 h

/-- A line of one token, none of the built-in commands. -/
theorem userLine_one {p : Platform} {t : Str} (h : t ≠ bs!"help" ∧ t ≠ bs!"exit" ∧ t ≠ bs!"history") : UserLine p [t] where
  nonempty := by simp
  notGlobal := by intro b hb; cases hb <;> simp_all
  ctype := by intro arg h; cases h

/-- With one token only the entries of the current menu with that name, and the parent, are designated. -/
theorem des_one {dis : Id → Bool} {m : MenuInfo} {k : Forest} {anc : Path} {t : Str} {cs : List Nat} {x : Target} (h : Des dis ((m, k) :: anc) [t] cs x) :
    (∃ i c, (entries k)[i]? = some (.cmd c) ∧ c.name = t ∧ x = .cmd c [] ∧ cs = [i]) ∨
    (∃ i m' k', (entries k)[i]? = some (.menu m' k') ∧ m'.name = t ∧ dis m'.id = false ∧ x = .menu ((m', k') :: (m, k) :: anc) ∧ cs = [i]) ∨
    (∃ p pk rest, anc = (p, pk) :: rest ∧ (t = p.name ∨ t = bs!"..") ∧ dis p.id = false ∧ x = .menu anc ∧ cs = [(entries k).length]) := by
  cases h with
  | here h1 h2 => exact .inl ⟨_, _, h1, rfl, rfl, rfl⟩
  | enter hs =>
    cases hs with
    | down h1 h2 => exact .inr (.inl ⟨_, _, _, h1, rfl, h2, rfl, rfl⟩)
    | up h1 h2 => exact .inr (.inr ⟨_, _, _, rfl, h2, h1, rfl, rfl⟩)

/-- **C15** `..`, or the parent's name, leads to the parent (if no entry of the menu has that name). -/
theorem C15_parent (fuel : Nat) (w : World σ τ) (hw : TreeWF w.tree w.used) (hh : History.WF w.hist) (line t : Str) (hl : Lex.Line line [t])
    (m p : MenuInfo) (k pk : Forest) (anc : Path) (hp : w.tree.locate w.current = some ((m, k) :: (p, pk) :: anc))
    (ht : t = bs!".." ∨ (t = p.name ∧ t ≠ bs!"help" ∧ t ≠ bs!"exit" ∧ t ≠ bs!"history"))
    (hm : w.dis m.id = false) (hpe : w.dis p.id = false)
    (hno : (∀ c, .cmd c ∈ entries k → c.name ≠ t) ∧ (∀ m' k', .menu m' k' ∈ entries k → m'.name ≠ t)) :
    ∃ w', feed A (fuel + 1) line w = .ok (w', none) ∧ w'.current = p.id ∧ w'.tree.locate w'.current = some ((p, pk) :: anc) ∧ w'.log = w.log ∧ w'.io = w.io := by
  have hdes : Des w.dis ((m, k) :: (p, pk) :: anc) [t] [(entries k).length] (.menu ((p, pk) :: anc)) :=
    .enter (.up hpe (by rcases ht with h | h; exact .inr h; exact .inl h.1))
  have hr : Ready A w line [t] ((m, k) :: (p, pk) :: anc) :=
    { hist := hh
      tokens := hl
      user := userLine_one (by rcases ht with rfl | h; exact ⟨by decide, by decide, by decide⟩; exact h.2)
      here := hp
      clean := by
        intro c args hd
        obtain ⟨cs, hmem⟩ := (designatesCmd_iff _ _ _ _ _).1 hd
        obtain ⟨_, hd⟩ := (mem_cands _ _ _ _).1 hmem
        rcases des_one hd with ⟨i, c', h1, h2, h3, _⟩ | ⟨_, _, _, _, _, _, h3, _⟩ | ⟨_, _, _, _, _, _, h3, _⟩
        · cases h3; exact absurd h2 (hno.1 c (List.mem_of_getElem? h1))
        · cases h3
        · cases h3 }
  have hc : Chosen A.plat w.dis ((m, k) :: (p, pk) :: anc) [t] (.menu ((p, pk) :: anc)) := by
    refine ⟨hm, _, hdes, by simp [Refused], ?_⟩
    intro cs' x' hd hlt
    rcases des_one hd with ⟨i, c', h1, h2, _⟩ | ⟨i, m', k', h1, h2, _⟩ | ⟨_, _, _, _, _, _, _, hcs⟩
    · exact absurd h2 (hno.1 _ (List.mem_of_getElem? h1))
    · exact absurd h2 (hno.2 _ _ (List.mem_of_getElem? h1))
    · rw [hcs] at hlt; exact absurd hlt (lex_irrefl _)
  obtain ⟨w', h1, h2, h3, h4, h5, _⟩ := C15_enter A fuel w hw line [t] _ hr p pk anc hc
  exact ⟨w', h1, h2, h3, h4, h5⟩

/-- **C15** Entering a submenu by its name and then `..` returns to the menu one came from. -/
theorem C15_enter_and_return (fuel : Nat) (w : World σ τ) (hw : TreeWF w.tree w.used) (hh : History.WF w.hist) (l1 l2 : Str)
    (p m : MenuInfo) (pk k : Forest) (anc : Path) (hl1 : Lex.Line l1 [m.name]) (hl2 : Lex.Line l2 [bs!".."])
    (hp : w.tree.locate w.current = some ((p, pk) :: anc)) (hm : .menu m k ∈ entries pk)
    (hn : m.name ≠ bs!"help" ∧ m.name ≠ bs!"exit" ∧ m.name ≠ bs!"history")
    (hpe : w.dis p.id = false) (hme : w.dis m.id = false)
    (honly : (∀ c, .cmd c ∈ entries pk → c.name ≠ m.name) ∧ (∀ m' k', .menu m' k' ∈ entries pk → m'.name = m.name → m' = m ∧ k' = k))
    (hno : (∀ c, .cmd c ∈ entries k → c.name ≠ bs!"..") ∧ (∀ m' k', .menu m' k' ∈ entries k → m'.name ≠ bs!"..")) :
    ∃ w1 w2, feed A (fuel + 1) l1 w = .ok (w1, none) ∧ w1.current = m.id ∧ feed A (fuel + 1) l2 w1 = .ok (w2, none) ∧ w2.current = w.current := by
  have hr : Ready A w l1 [m.name] ((p, pk) :: anc) :=
    { hist := hh, tokens := hl1, user := userLine_one hn, here := hp
      clean := by
        intro c args hd
        obtain ⟨cs, hmem⟩ := (designatesCmd_iff _ _ _ _ _).1 hd
        obtain ⟨_, hd⟩ := (mem_cands _ _ _ _).1 hmem
        rcases des_one hd with ⟨i, c', h1, h2, h3, _⟩ | ⟨_, _, _, _, _, _, h3, _⟩ | ⟨_, _, _, _, _, _, h3, _⟩
        · cases h3; exact absurd h2 (honly.1 c (List.mem_of_getElem? h1))
        · cases h3
        · cases h3 }
  have hc : Chosen A.plat w.dis ((p, pk) :: anc) [m.name] (.menu ((m, k) :: (p, pk) :: anc)) := by
    obtain ⟨i, hi⟩ := entries_index hm
    -- the first usable designation
    have hsome : ∃ t, Chosen A.plat w.dis ((p, pk) :: anc) [m.name] t := by
      cases hf : ((cands w.dis [m.name] ((p, pk) :: anc)).map (·.2)).find? (fun x => !refusedB A.plat x) with
      | some t => exact ⟨t, chosen_iff_find.2 hf⟩
      | none =>
        exfalso
        rw [List.find?_eq_none] at hf
        have hd : Des w.dis ((p, pk) :: anc) [m.name] [i] (.menu ((m, k) :: (p, pk) :: anc)) := .enter (.down hi hme)
        have := hf _ (List.mem_map.2 ⟨([i], _), (mem_cands _ _ _ _).2 ⟨hpe, hd⟩, rfl⟩)
        simp [refusedB] at this
    obtain ⟨t, hch⟩ := hsome
    have hch' := hch
    obtain ⟨_, cs, hd, hnr, hfirst⟩ := hch'
    rcases des_one hd with ⟨j, c', h1, h2, _⟩ | ⟨j, m', k', h1, h2, h3, hx, hcs⟩ | ⟨p', pk', rest, h1, h2, h3, hx, hcs⟩
    · exact absurd h2 (honly.1 _ (List.mem_of_getElem? h1))
    · obtain ⟨rfl, rfl⟩ := honly.2 m' k' (List.mem_of_getElem? h1) h2
      rw [hx] at hch
      exact hch
    · exfalso
      subst hcs
      have hd' : Des w.dis ((p, pk) :: anc) [m.name] [i] (.menu ((m, k) :: (p, pk) :: anc)) := .enter (.down hi hme)
      have hlen : i < (entries pk).length := by
        obtain ⟨hlt, _⟩ := List.getElem?_eq_some_iff.1 hi
        exact hlt
      exact hfirst _ _ hd' (.inl hlen)
  obtain ⟨w1, h1, h2, h3, h4, h5, ht, hd, _, hu, _, hwf, _⟩ := C15_enter A fuel w hw l1 [m.name] _ hr m k _ hc
  obtain ⟨w2, g1, g2, _⟩ := C15_parent A fuel w1 (by rw [ht, hu]; exact hw) hwf l2 bs!".." hl2 m p k pk anc h3 (.inl rfl) (by rw [hd]; exact hme) (by rw [hd]; exact hpe) hno
  obtain ⟨m0, k0, q0, he, hid⟩ := Tree.locate_self hp
  cases he
  exact ⟨w1, w2, h1, h2, g1, by rw [g2, hid]⟩

/-- In the sample menus: `sub`, then `..`. -/
example : ∃ w1 w2, feed Sample.app 1 bs!"sub" Sample.world = .ok (w1, none) ∧ w1.current = 3 ∧ feed Sample.app 1 bs!" .." w1 = .ok (w2, none) ∧ w2.current = 0 :=
  C15_enter_and_return Sample.app 0 Sample.world sample_wf (History.wf_init 10) _ _ Sample.root Sample.sub Sample.kids Sample.subKids []
    ((split_iff _ _).1 (by rfl)) ((split_iff _ _).1 (by rfl)) rfl (by decide) (by decide) rfl rfl (by
      refine ⟨?_, ?_⟩
      · intro c hc
        simp only [Sample.kids, entries, List.mem_cons, List.not_mem_nil, or_false, reduceCtorEq, false_or, Entry.cmd.injEq] at hc
        rcases hc with rfl | rfl | rfl | rfl | rfl | rfl | rfl | rfl <;> decide
      · intro m k hc _
        simp only [Sample.kids, entries, List.mem_cons, List.not_mem_nil, or_false, reduceCtorEq, false_or, Entry.menu.injEq] at hc
        exact hc)
    (by
      refine ⟨?_, ?_⟩
      · intro c hc
        simp only [Sample.subKids, entries, List.mem_cons, List.not_mem_nil, or_false, reduceCtorEq, Entry.cmd.injEq] at hc
        rcases hc with rfl | rfl <;> decide
      · intro m k hc
        simp only [Sample.subKids, entries, List.mem_cons, List.not_mem_nil, or_false, reduceCtorEq, false_or, Entry.menu.injEq] at hc
        obtain ⟨rfl, _⟩ := hc
        decide)

/-! ### C20 -/

/-- **C20** (partial) While a line is fed in an existing menu, no destroyed menu is used and no invalid iterator, whatever is removed or inserted by handlers, if no user code throws
    `bad_cast`: the only faults are those of C05 (conversions), C26 and C27 (`!`). -/
theorem C20_feed_partial (hA : A.Tame) (fuel : Nat) (line : Str) (w : World σ τ) (hc : w.current ∈ w.tree.menuIds) (f : Fault) (h : feed A fuel line w = .error f) :
    f ≠ .ub .dangling ∧ f ≠ .ub .iteratorInvalidation := by
  have := feed_fault A hA fuel line w f (Tree.locate_some hc) h
  rcases this with rfl | ⟨p, ty, s, u, hu, rfl⟩ | rfl | rfl
  · simp
  · rcases C07_conversion_ub_partial p ty s u hu with ⟨rfl, _⟩ | ⟨rfl, _⟩ <;> simp
  · simp
  · simp

/-- **C20** (partial) In every execution in which no menu is removed (commands may be removed, commands and menus inserted, everything enabled and disabled, by handlers
    and from outside), feeding a line and showing the prompt never use a destroyed menu or an invalid iterator.
    Missing: removal of the session's current menu or of one that contains it (refuted below), and handlers that throw `bad_cast` (refuted below). -/
theorem C20_exec_partial (hA : A.Tame) (K : Id → Prop) (hK : A.Only (KeepsMenus K)) (w w' : World σ τ) (hw : w.current ∈ w.tree.menuIds)
    (hm : ∀ i ∈ w.tree.menuIds, K i) (h : Exec A (KeepsMenus K) (fun _ => True) w w') :
    (∃ w'', prompt w' = .ok w'') ∧
    ∀ fuel line f, feed A fuel line w' = .error f → f ≠ .ub .dangling ∧ f ≠ .ub .iteratorInvalidation := by
  have hs : Settled K w' := exec_closed (closed_settled hK) (fun w a ha h => settled_act w a ha h) (fun w io h => h) (fun w _ h => h) h ⟨hw, hm⟩
  refine ⟨?_, fun fuel line f hf => C20_feed_partial A hA fuel line w' hs.1 f hf⟩
  unfold Verif.prompt
  split
  · exact ⟨_, rfl⟩
  · cases hl : w'.tree.locate w'.current with
    | none => exact absurd hl (Tree.locate_some hs.1)
    | some p =>
      obtain ⟨m, k, q, rfl, _⟩ := Tree.locate_self hl
      exact ⟨_, rfl⟩

/-- In the sample application with a `drop` that removes the command `go` instead of the menu. -/
example : ({ Sample.tame with handler := fun fn s vals => { Sample.tame.handler fn s vals with acts := [.remove 4] } } : App (List Nat) (List Str)).Only
    (KeepsMenus fun i => i ≠ 4) := by
  refine ⟨?_, ?_, ?_, ?_, ?_, ?_, ?_⟩
  · intro f s v a ha
    cases List.mem_singleton.1 ha
    exact fun h => h rfl
  · intro f h; cases h
  · intro f h; cases h
  · intro f h s a ha; cases h; cases ha
  · intro f h; cases h
  · intro f h; cases h
  · intro f h; cases h

/-- **C20** Exactly which user code is dangerous: after it, the session's current menu exists (and the prompt can be shown) iff it has removed neither the current menu nor one that contains it; otherwise even the
    prompt uses a destroyed menu. (The root menu cannot be removed.) -/
theorem C20_removal_exact (w : World σ τ) (hw : TreeWF w.tree w.used) (hx : w.exit = false) (p : Path) (hp : w.tree.locate w.current = some p) (e : Effect σ) :
    ((∀ id, .remove id ∈ e.acts → id = w.tree.root.id ∨ ∀ x ∈ p, x.1.id ≠ id) → ∃ w', prompt (w.effect e) = .ok w') ∧
    ((∃ id, .remove id ∈ e.acts ∧ id ≠ w.tree.root.id ∧ ∃ x ∈ p, x.1.id = id) → prompt (w.effect e) = .error (.ub .dangling)) := by
  have key := acts_path e.acts (w := { w with app := e.app }) hw hp
  have hex : (w.effect e).exit = false := by
    unfold World.effect
    have : ∀ (as : List Act) (w : World σ τ), (as.foldl World.act w).exit = w.exit := by
      intro as; induction as with
      | nil => intro w; rfl
      | cons a as ih => intro w; exact (ih _).trans (act_current w a).2
    rw [this]; exact hx
  constructor
  · intro h
    have := key.2 (by
      intro id hm hne hin
      obtain ⟨m, h1, rfl⟩ := List.mem_map.1 hin
      obtain ⟨x, h2, rfl⟩ := List.mem_map.1 h1
      rcases h _ hm with h | h
      · exact hne h
      · exact h x h2 rfl)
    unfold Verif.prompt
    simp only [hex, Bool.false_eq_true, if_false]
    cases hl : (w.effect e).tree.locate (w.effect e).current with
    | none => exact absurd hl this
    | some q =>
      obtain ⟨m, k, q', rfl, _⟩ := Tree.locate_self hl
      exact ⟨_, rfl⟩
  · rintro ⟨id, hm, hne, x, hx, hid⟩
    have : (w.effect e).tree.locate (w.effect e).current = none := by
      cases hl : (w.effect e).tree.locate (w.effect e).current with
      | none => rfl
      | some q =>
        exact absurd (List.mem_map.2 ⟨x.1, List.mem_map.2 ⟨x, hx, rfl⟩, hid⟩) (key.1 (by unfold World.effect at hl; rw [hl]; simp) id hm hne)
    unfold Verif.prompt
    simp only [hex, Bool.false_eq_true, if_false, this]

/-- In the menu `sub` (3): removing a command and another menu just inserted is harmless, removing `sub` is not. -/
example : (∃ w', prompt (({ Sample.world with current := 3 } : World (List Nat) (List Str)).effect ⟨[], [.remove 4, .insert 0 (.menu ⟨100, bs!"new", [], []⟩ .nil .nil), .remove 100], none⟩) = .ok w') ∧
    prompt (({ Sample.world with current := 3 } : World (List Nat) (List Str)).effect ⟨[], [.out bs!"x", .remove 3], none⟩) = .error (.ub .dangling) := by
  refine ⟨(C20_removal_exact { Sample.world with current := 3 } sample_wf rfl [(Sample.sub, Sample.subKids), (Sample.root, Sample.kids)] rfl _).1 ?_,
    (C20_removal_exact { Sample.world with current := 3 } sample_wf rfl [(Sample.sub, Sample.subKids), (Sample.root, Sample.kids)] rfl _).2 ⟨3, by simp, by decide, _, List.mem_cons_self, rfl⟩⟩
  intro id hid
  simp only [List.mem_cons, reduceCtorEq, List.not_mem_nil, or_false, false_or, Act.remove.injEq] at hid
  right
  rcases hid with rfl | rfl <;> intro x hx <;> simp only [List.mem_cons, List.not_mem_nil, or_false] at hx <;> rcases hx with rfl | rfl <;> decide

/-- **C20** is false of the code: a command in the current menu removes this menu; whatever is fed next, even a blank prompt, uses the destroyed menu. -/
theorem C20_current_menu_removed_refuted :
    ∃ w1 w2 : World (List Nat) (List Str), feed Sample.tame 1 bs!"sub" Sample.world = .ok (w1, none) ∧ feed Sample.tame 1 bs!"drop" w1 = .ok (w2, none) ∧
      (∀ fuel, feed Sample.tame (fuel + 1) bs!"x" w2 = .error (.ub .dangling)) ∧ (∀ fuel, feed Sample.tame (fuel + 1) bs!"help" w2 = .error (.ub .dangling)) ∧
      prompt w2 = .error (.ub .dangling) :=
  ⟨_, _, rfl, rfl, fun _ => rfl, fun _ => rfl, rfl⟩

/-- Handlers that remove their own command, and throw `bad_cast`. -/
def selfRemoving : App (List Nat) (List Str) :=
  { Sample.app with handler := fun fn s _ => ⟨fn :: s, [.remove fn], some (.badCast bs!"x")⟩ }

/-- **C20** The command's own entry is erased from the vector over which the search is running; as `bad_cast` is taken for a failed conversion the search goes on with an invalid
    iterator. -/
theorem C20_iterator_invalidated_refuted (fuel : Nat) : feed selfRemoving (fuel + 1) bs!"cast" Sample.world = .error (.ub .iteratorInvalidation) := by rfl

end Verif.Props
