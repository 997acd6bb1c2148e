import Verif.Spec.Sheets
import Verif.Props.Workbench
import Verif.Props.Drafts

set_option linter.unusedSimpArgs false

/-!
# C136: editing lines in the plugin manager, proofs
-/

namespace Verif.Workbench
open Spec
open Terminal (Key)
open Props (Moves InTurn inTurn_run inTurn_create program_rest C38_longest_common_prefix C63_defined_partial C03_split_total)
open Processor
open Plugins (Plug Item Fn rootInfo rootKids)
open Plugged (PWorld kidsOf kidsOf_cons)
open Showcase (Book Bang Readable Recalls Shows Edits Common leftwards wipe settled settled_wf settled_command Looking looking_none keeps_setLine keeps_put keeps_key edits_key Texty texty_append texty_printable texty_literal texty_flat lines_end lines_nil
  shows_printable decimal_printable tokens_printable clean_record clean_forget number_mem render_lines sgr_run feed_run crlf_run wipe_run text_ofLine before_ofLine before_le recalls_kind)
open Script (line_same line_bytes)

abbrev PProc := Proc Plugins.St Storage.Volatile

/-! ### The menus, as the completion sees them -/

theorem kids_menu {m : MenuInfo} {k : Forest} : ∀ {l : List Item}, Spec.Entry.menu m k ∈ entries (kidsOf l) ↔ ∃ e ∈ l, m = e.plug.info e.menu ∧ k = e.plug.kids e.menu
  | [] => by simp [kidsOf, entries]
  | e :: l => by
    rw [kidsOf_cons, Item.forest]
    simp only [entries, List.mem_cons, kids_menu (l := l), Spec.Entry.menu.injEq]
    constructor
    · rintro (⟨rfl, rfl⟩ | ⟨x, hx, h⟩)
      · exact ⟨e, .inl rfl, rfl, rfl⟩
      · exact ⟨x, .inr hx, h⟩
    · rintro ⟨x, rfl | hx, h⟩
      · exact .inl h
      · exact .inr ⟨x, hx, h⟩

theorem kids_no_cmd {c : Cmd} : ∀ {l : List Item}, Spec.Entry.cmd c ∉ entries (kidsOf l)
  | [] => by simp [kidsOf, entries]
  | e :: l => by
    rw [kidsOf_cons, Item.forest]
    simp only [entries, List.mem_cons, not_or]
    exact ⟨by simp, kids_no_cmd⟩

theorem loaded_item {s : Desk} {w : PWorld} (h : At s w) {p : Plug} : p ∈ s.loaded ↔ ∃ e ∈ w.app.loaded, e.plug = p := by rw [← h.loaded]; simp

theorem path_down {s : Desk} {w : PWorld} (h : At s w) {a : Place} {i : Nat} {p : MenuInfo} {kids : Forest} {anc : Path} {m : MenuInfo} {k : Forest} (hh : Here w a i ((p, kids) :: anc)) (hm : Spec.Entry.menu m k ∈ entries kids) :
    ∃ b j, Above s a b ∧ Here w b j ((m, k) :: (p, kids) :: anc) ∧ m.name = b.name ∧ w.dis m.id = false := by
  generalize hP : (p, kids) :: anc = P at hh
  cases hh with
  | root =>
    cases hP
    have hm : ∃ e ∈ w.app.loaded, m = e.plug.info e.menu ∧ k = e.plug.kids e.menu := by
      rw [← kids_menu]
      simpa [rootKids, entries] using hm
    obtain ⟨e, he, rfl, rfl⟩ := hm
    exact ⟨.plug e.plug, e.menu, ⟨rfl, e.plug, (loaded_item h).2 ⟨e, he, rfl⟩, rfl⟩, .plug he, (called_name _).symm, h.good.on he⟩
  | @plug e he =>
    cases hP
    cases e with
    | mk p m => cases p <;> simp [Plug.kids, entries] at hm

theorem path_up {s : Desk} {w : PWorld} (h : At s w) {a : Place} {i : Nat} {m p : MenuInfo} {kids pk : Forest} {anc : Path} (hh : Here w a i ((m, kids) :: (p, pk) :: anc)) :
    ∃ b j, Above s b a ∧ Here w b j ((p, pk) :: anc) ∧ p.name = b.name ∧ w.dis p.id = false := by
  generalize hP : (m, kids) :: (p, pk) :: anc = P at hh
  cases hh with
  | root => cases hP
  | @plug e he =>
    cases hP
    exact ⟨.root, 0, ⟨rfl, e.plug, (loaded_item h).2 ⟨e, he, rfl⟩, rfl⟩, .root, rfl, h.good.others 0 (by decide) (by decide)⟩

theorem path_below {s : Desk} {w : PWorld} (h : At s w) {a b : Place} {i : Nat} {P : Path} (hh : Here w a i P) (hab : Above s a b) :
    ∃ p kids anc m k j, P = (p, kids) :: anc ∧ Spec.Entry.menu m k ∈ entries kids ∧ Here w b j ((m, k) :: P) ∧ m.name = b.name ∧ w.dis m.id = false := by
  obtain ⟨rfl, p, hp, rfl⟩ := hab
  obtain ⟨e, he, rfl⟩ := (loaded_item h).1 hp
  cases hh
  refine ⟨_, _, _, e.plug.info e.menu, e.plug.kids e.menu, e.menu, rfl, ?_, .plug he, (called_name _).symm, h.good.on he⟩
  have : Spec.Entry.menu (e.plug.info e.menu) (e.plug.kids e.menu) ∈ entries (kidsOf w.app.loaded) := kids_menu.2 ⟨e, he, rfl, rfl⟩
  simpa [rootKids, entries] using this

theorem path_above {s : Desk} {w : PWorld} (h : At s w) {a b : Place} {i : Nat} {P : Path} (hh : Here w a i P) (hab : Above s b a) :
    ∃ m kids p pk anc j, P = (m, kids) :: (p, pk) :: anc ∧ Here w b j ((p, pk) :: anc) ∧ p.name = b.name ∧ w.dis p.id = false := by
  obtain ⟨rfl, p, hp, rfl⟩ := hab
  cases hh with
  | plug he => exact ⟨_, _, _, _, _, 0, rfl, .root, rfl, h.good.others 0 (by decide) (by decide)⟩

theorem name_dots (p : Place) (x : Str) : ¬ p.name <+: bs!".." ++ x := by
  rintro ⟨t, ht⟩
  rcases p with _ | _ | _ <;> simp [Place.name] at ht

theorem typing_reads {s : Desk} {w : PWorld} (hw : At s w) {P Q : Path} {l r : Str} {ws : List Str} (h : Typing P l ws Q r) : ∀ {a i}, Here w a i P → ∃ q j, Here w q j Q ∧ Reads s a l ws q r := by
  induction h with
  | here p r => intro a i e; exact ⟨a, i, e, .here⟩
  | down hm hg _ ih =>
    intro a i e
    obtain ⟨b, j, h1, h2, h3, _⟩ := path_down hw e hm
    obtain ⟨q, j, e1, e2⟩ := ih h2
    rw [h3]
    exact ⟨q, j, e1, .down h1 hg e2⟩
  | up hg _ ih =>
    intro a i e
    obtain ⟨b, j, h1, h2, h3, _⟩ := path_up hw e
    obtain ⟨q, j, e1, e2⟩ := ih h2
    rw [h3]
    exact ⟨q, j, e1, .up h1 (.inl rfl) hg e2⟩
  | dots hg _ _ ih =>
    intro a i e
    obtain ⟨b, j, h1, h2, h3, _⟩ := path_up hw e
    obtain ⟨q, j, e1, e2⟩ := ih h2
    exact ⟨q, j, e1, .up h1 (.inr rfl) hg e2⟩

theorem reads_typing {s : Desk} {w : PWorld} (hw : At s w) {a q : Place} {l r : Str} {ws : List Str} (h : Reads s a l ws q r) : ∀ {i P}, Here w a i P → ∃ j Q, Here w q j Q ∧ Typing P l ws Q r := by
  induction h with
  | here => intro i P e; exact ⟨i, P, e, .here _ _⟩
  | down h1 hg _ ih =>
    intro i P e
    obtain ⟨p, kids, anc, m, k, j, rfl, e2, e3, e4, _⟩ := path_below hw e h1
    obtain ⟨j', Q, g1, g2⟩ := ih e3
    rw [← e4]
    exact ⟨j', Q, g1, .down e2 hg g2⟩
  | up h1 ht hg _ ih =>
    intro i P e
    obtain ⟨m, kids, p, pk, anc, j, rfl, e2, e3, _⟩ := path_above hw e h1
    obtain ⟨j', Q, g1, g2⟩ := ih e2
    refine ⟨j', Q, g1, ?_⟩
    rcases ht with rfl | rfl
    · rw [← e3]; exact .up hg g2
    · refine .dots hg ?_ g2
      rw [e3, List.append_assoc]
      exact name_dots _ _

/-- The commands that can be executed. -/
theorem cmd_names {s : Desk} {w : PWorld} (h : At s w) {q : Place} {i : Nat} {m : MenuInfo} {kids : Forest} {anc : Path} (hh : Here w q i ((m, kids) :: anc)) (e : Str) :
    (∃ c, Spec.Entry.cmd c ∈ entries kids ∧ w.dis c.id = false ∧ e = c.name) ↔ e ∈ s.names q := by
  generalize hP : (m, kids) :: anc = P at hh
  obtain ⟨d5, d6⟩ := h.offers
  cases hh with
  | root =>
    cases hP
    have d1 := h.good.others 1 (by decide) (by decide)
    have d2 := h.good.others 2 (by decide) (by decide)
    have d3 := h.good.others 3 (by decide) (by decide)
    have d4 := h.good.others 4 (by decide) (by decide)
    have no : ∀ c, Spec.Entry.cmd c ∉ entries (kidsOf w.app.loaded) := fun c => kids_no_cmd
    rcases hc : s.choice with _ | _ | _ <;> rw [hc] at d5 d6 <;>
      simp [rootKids, entries, Desk.names, Plugins.cmd, hc, d1, d2, d3, d4, d5, d6, no, or_assoc]
  | @plug x hx =>
    cases hP
    have h7 := (h.good.above x hx).1
    have on : ∀ k : Nat, 7 ≤ k → w.dis k = false := fun k hk => h.good.others k (fun hh => by have : k = 5 := hh; omega) (fun hh => by have : k = 6 := hh; omega)
    have d1 := on (x.menu + 1) (by omega)
    have d2 := on (x.menu + 2) (by omega)
    have d3 := on (x.menu + 3) (by omega)
    cases x with
    | mk p m => cases p <;> (simp only at d1 d2 d3; simp [Plug.kids, entries, Desk.names, Plugins.cmd, d1, d2, d3])

theorem begins_iff {s : Desk} {w : PWorld} (h : At s w) {q : Place} {i : Nat} {Q : Path} (hh : Here w q i Q) (r e : Str) : Spec.Begins w.dis Q r e ↔ s.Begins q r e := by
  constructor
  · intro hb
    cases hb with
    | cmd h1 h2 h3 => exact .inl ⟨(cmd_names h hh _).1 ⟨_, h1, h2, rfl⟩, h3⟩
    | menu h1 h2 h3 h4 =>
      obtain ⟨b, j, e1, _, e3, _⟩ := path_down h hh h1
      exact .inr ⟨b, .inl e1, e3, h3, h4⟩
    | parent h1 h2 h3 h4 =>
      obtain ⟨b, j, e1, _, e3, _⟩ := path_up h hh
      exact .inr ⟨b, .inr e1, e3, h2, h3⟩
  · rintro (⟨h1, h2⟩ | ⟨b, h1 | h1, rfl, h2, h3⟩)
    · have hp : ∃ m kids anc, Q = (m, kids) :: anc := by cases hh <;> exact ⟨_, _, _, rfl⟩
      obtain ⟨m, kids, anc, rfl⟩ := hp
      obtain ⟨c, g1, g2, g3⟩ := (cmd_names h hh e).2 h1
      rw [g3]
      exact .cmd g1 g2 (by rw [← g3]; exact h2)
    · obtain ⟨p, kids, anc, m, k, j, rfl, e2, e3, e4, e5⟩ := path_below h hh h1
      rw [← e4]
      exact .menu e2 e5 (by rw [e4]; exact h2) (by rw [e4]; exact h3)
    · obtain ⟨m, kids, p, pk, anc, j, rfl, e2, e3, e4⟩ := path_above h hh h1
      rw [← e3]
      refine .parent e4 (by rw [e3]; exact h2) (by rw [e3]; exact h3) ?_
      rintro ⟨x, rfl⟩
      obtain ⟨y, hy⟩ := h2
      rcases b with _ | _ | _ <;> simp [Place.name] at hy

/-- What the completion offers. -/
theorem offers_here {s : Desk} {w : PWorld} (h : At s w) {p : Platform} {fuel : Nat} {line : Str} {cs : List Str} (hc : Completion.completions p fuel w line = .ok cs) : s.Offers line cs := by
  obtain ⟨gap, typed, P, e, hg, hp, hs, hm⟩ := Props.completions_spec hc
  refine ⟨hs, fun c => ?_⟩
  obtain ⟨i, P', hP, hh⟩ := locate_place h
  obtain rfl : P' = P := by rw [hp] at hP; exact (Option.some.inj hP).symm
  rw [hm c]
  constructor
  · rintro (h1 | ⟨ws, Q, r, x, h1, h2, h3⟩)
    · exact ⟨gap, typed, e, hg, .inl h1⟩
    · obtain ⟨q, j, h5, h4⟩ := typing_reads h h1 hh
      exact ⟨gap, typed, e, hg, .inr ⟨ws, q, r, x, h4, (begins_iff h h5 r x).1 h2, h3⟩⟩
  · rintro ⟨gap', typed', e', hg', h1⟩
    obtain ⟨-, rfl⟩ := Completion.gap_unique hg hg' (e.symm.trans e')
    rcases h1 with h1 | ⟨ws, q, r, x, h1, h2, h3⟩
    · exact .inl h1
    · obtain ⟨j, Q, h5, h4⟩ := reads_typing h h1 hh
      exact .inr ⟨ws, Q, r, x, h4, (begins_iff h h5 r x).2 h2, h3⟩

theorem kids_separated (n : Prop) : ∀ l : List Item, Separated n (kidsOf l)
  | [] => trivial
  | e :: l => by
    rw [kidsOf_cons, Item.forest]
    refine ⟨?_, ?_, kids_separated n l⟩
    · cases e with
      | mk p m => cases p <;> simp [Plug.info, Plug.name]
    · cases e with
      | mk p m => cases p <;> simp [Plug.kids, Separated]

theorem kids_printable : ∀ l : List Item, NamesPrintable (kidsOf l)
  | [] => trivial
  | e :: l => by
    rw [kidsOf_cons, Item.forest]
    refine ⟨?_, ?_, kids_printable l⟩
    · cases e with
      | mk p m => cases p <;> (simp only [Plug.info, Plug.name, Printable]; decide)
    · cases e with
      | mk p m => cases p <;> (simp only [Plug.kids, NamesPrintable, Printable, Plugins.cmd]; decide)

theorem tree_kids (l : List Item) : Separated (rootInfo.name = []) (rootKids (kidsOf l)) ∧ TreePrintable ⟨rootInfo, rootKids (kidsOf l)⟩ := by
  constructor
  · have := kids_separated (rootInfo.name = []) l
    simpa [rootKids, Separated] using this
  · have := kids_printable l
    simp only [TreePrintable, rootInfo, rootKids, NamesPrintable, Printable, Plugins.cmd, this, and_true]
    decide

/-! ### Answers are lines of text -/

theorem lines_append {a b : Str} (ha : Lines a) (hb : Lines b) : Lines (a ++ b) := by
  refine ⟨texty_append.2 ⟨ha.1, hb.1⟩, ?_⟩
  rcases hb.2 with rfl | h
  · simpa using ha.2
  · exact .inr (by rw [List.getLast?_append, h]; rfl)

theorem lines_flat {α : Type} {l : List α} {f : α → Str} (h : ∀ x ∈ l, Lines (f x)) : Lines (l.flatMap f) := by
  induction l with
  | nil => exact lines_nil
  | cons x l ih => exact lines_append (h x (by simp)) (ih fun y hy => h y (by simp [hy]))

theorem lines_literal {t : Str} (h : t.all (fun c => inRow c || c == b%'\n') = true ∧ t.getLast? = some b%'\n') : Lines t := ⟨texty_literal h.1, .inr h.2⟩

theorem capital_printable {a : Str} (h : Printable a) : Printable (a.map capital) := by
  intro c hc
  obtain ⟨x, hx, rfl⟩ := List.mem_map.1 hc
  have key : ∀ n < 256, printable (UInt8.ofNat n) = true → printable (capital (UInt8.ofNat n)) = true := by decide +kernel
  have := key x.toNat x.toNat_lt
  rw [UInt8.ofNat_toNat] at this
  exact this (h x hx)

/-- What a command says. -/
theorem row_lines {f : Bool} {s : Desk} {pl : Place} {name : Str} {does : List Str → Reply → Prop} (hm : (name, does) ∈ rows f s pl) {args : List Str} {r : Reply} (hd : does args r)
    (ha : ∀ a ∈ args, Printable a) : Lines (r.text s) := by
  have sum : ∀ {a b c : Str} {x y z : Int} {sign : Str}, Texty sign → Shows a x → Shows b y → Shows c z → Lines (a ++ sign ++ b ++ bs!" = " ++ c ++ bs!"\n") := fun h0 h1 h2 h3 =>
    lines_end (texty_append.2 ⟨texty_append.2 ⟨texty_append.2 ⟨texty_append.2 ⟨texty_printable (shows_printable h1), h0⟩, texty_printable (shows_printable h2)⟩, texty_literal (by decide)⟩, texty_printable (shows_printable h3)⟩)
  have calc2 : ∀ {op : Int → Int → Int} {sign : Str}, Texty sign → calc2 op sign args r → Lines (r.text s) := by
    rintro op sign h0 ⟨a, b, i, j, _, _, _, ⟨_, d, e, t, h1, h2, h3, rfl⟩ | ⟨_, rfl⟩⟩
    · exact sum h0 h1 h2 h3
    · exact lines_nil
  rcases pl with _ | _ | _
  · simp only [rows, List.mem_cons, Prod.mk.injEq, List.not_mem_nil, or_false] at hm
    rcases hm with ⟨-, rfl⟩ | ⟨-, rfl⟩ | ⟨-, rfl⟩ | ⟨-, rfl⟩ | ⟨-, rfl⟩ | ⟨-, rfl⟩
    · obtain ⟨_, rfl⟩ := hd
      show Lines (if f then _ else _)
      cases f <;> exact lines_literal (by decide +kernel)
    · obtain ⟨_, rfl⟩ := hd
      exact lines_flat fun p _ => by cases p <;> exact lines_literal (by decide +kernel)
    · obtain ⟨a, _, ⟨p, _, rfl⟩ | ⟨_, rfl⟩⟩ := hd
      · show Lines (_ ++ called p ++ _)
        cases p <;> exact lines_literal (by decide +kernel)
      · exact lines_nil
    · obtain ⟨a, _, rfl⟩ := hd
      exact lines_flat fun p _ => by cases p <;> exact lines_literal (by decide +kernel)
    · obtain ⟨_, _, rfl⟩ := hd; exact lines_literal (t := bs!"Colors ON\n") (by decide +kernel)
    · obtain ⟨_, _, rfl⟩ := hd; exact lines_literal (t := bs!"Colors OFF\n") (by decide +kernel)
  · simp only [rows, List.mem_cons, Prod.mk.injEq, List.not_mem_nil, or_false] at hm
    rcases hm with ⟨-, rfl⟩ | ⟨-, rfl⟩ | ⟨-, rfl⟩
    · exact calc2 (texty_literal (by decide)) hd
    · obtain ⟨a, b, c, i, j, k, _, _, _, _, ⟨_, _, d, e, g, t, h1, h2, h3, h4, rfl⟩ | ⟨_, rfl⟩⟩ := hd
      · exact lines_end (texty_append.2 ⟨texty_append.2 ⟨texty_append.2 ⟨texty_append.2 ⟨texty_append.2 ⟨texty_append.2 ⟨texty_printable (shows_printable h1), texty_literal (by decide)⟩, texty_printable (shows_printable h2)⟩, texty_literal (by decide)⟩,
          texty_printable (shows_printable h3)⟩, texty_literal (by decide)⟩, texty_printable (shows_printable h4)⟩)
      · exact lines_nil
    · exact calc2 (texty_literal (by decide)) hd
  · simp only [rows, List.mem_cons, Prod.mk.injEq, List.not_mem_nil, or_false] at hm
    rcases hm with ⟨-, rfl⟩ | ⟨-, rfl⟩ | ⟨-, rfl⟩
    · obtain ⟨a, rfl, rfl⟩ := hd
      exact lines_end (texty_printable (printable_reverse.2 (ha a (by simp))))
    · obtain ⟨a, rfl, rfl⟩ := hd
      exact lines_end (texty_printable (capital_printable (ha a (by simp))))
    · obtain ⟨l, h1, _, rfl⟩ := hd
      exact lines_end (texty_append.2 ⟨texty_literal (by decide +kernel), texty_flat fun x hx => texty_append.2 ⟨texty_printable (ha x (h1.mem_iff.1 hx)), texty_literal (by decide)⟩⟩)

theorem does_lines {f : Bool} {s : Desk} {pl : Place} {toks : List Str} {r : Reply} (hd : Does f s pl toks r) (ha : ∀ a ∈ toks, Printable a) : Lines (r.text s) := by
  induction hd with
  | here hm hd => exact row_lines hm hd (fun a h => ha a (by simp [h]))
  | down | up => exact lines_nil
  | inside _ _ ih => exact ih (fun a h => ha a (by simp [h]))
  | outside _ _ _ ih => exact ih (fun a h => ha a (by simp [h]))

theorem help_lines (s : Desk) : Lines (bs!"Commands available:\n" ++ (globalItems ++ s.offers).flatMap HelpItem.text) := by
  rw [List.flatMap_append]
  refine lines_append (lines_literal (by decide +kernel)) (lines_append (lines_literal (by decide +kernel)) ?_)
  unfold Desk.offers
  split
  · rw [List.flatMap_append, List.flatMap_append, List.flatMap_append]
    refine lines_append (lines_append (lines_append (lines_literal (by decide +kernel)) ?_) ?_) ?_
    · split
      · exact lines_nil
      · exact lines_literal (by decide +kernel)
    · split
      · exact lines_nil
      · exact lines_literal (by decide +kernel)
    · rw [List.flatMap_map]
      exact lines_flat fun p _ => by cases p <;> exact lines_literal (by decide +kernel)
  · exact lines_literal (by decide +kernel)
  · exact lines_literal (by decide +kernel)

theorem apply_book (s : Desk) (r : Reply) : (s.apply r).book = s.book := by cases r <;> rfl

/-- What is answered to a line that can be printed are lines of text, and what is in the book can still be printed. -/
theorem answer_lines {f : Bool} {s s' : Desk} {l t : Str} (h : Answer f s l s' t) : s.book.Clean → Printable l → Lines t ∧ s'.book.Clean ∧ s'.book.room = s.book.room := by
  have room : ∀ (b : Book) (l : Str), (b.record l).room = b.room := by
    intro b l
    unfold Book.record
    split
    · rfl
    · split <;> rfl
  induction h with
  | blank _ => intro hb _; exact ⟨lines_nil, hb, rfl⟩
  | help _ => intro hb hl; exact ⟨help_lines _, clean_record hb hl, room _ _⟩
  | does h1 h2 _ _ => intro hb hl; exact ⟨does_lines h2 (tokens_printable h1 hl), by rw [apply_book]; exact clean_record hb hl, by rw [apply_book]; exact room _ _⟩
  | @wrong s line _ _ _ _ _ =>
    intro hb hl
    exact ⟨lines_end (texty_append.2 ⟨texty_literal (by decide +kernel), texty_printable hl⟩), clean_record hb hl, room _ _⟩
  | history _ => intro hb hl; exact ⟨render_lines (clean_record hb hl), clean_record hb hl, room _ _⟩
  | @again s line n c s' t _ h2 _ ih =>
    intro hb hl
    have hc := clean_forget (clean_record hb hl)
    obtain ⟨g1, g2, g3⟩ := ih hc (hc _ (number_mem h2))
    exact ⟨g1, g2, g3.trans (room _ _)⟩
  | @unknown s line n _ _ =>
    intro hb hl
    exact ⟨lines_literal (by decide +kernel), clean_forget (clean_record hb hl), room _ _⟩

/-! ### The screen -/

/-- The colours of the session, as those of the program `complete`. -/
def Desk.seat (s : Desk) : Showcase.Seat := ⟨.root, s.colour, false, s.escapes, s.book⟩

/-- The line, as one of the program `complete`. -/
def Sheet.shadow (d : Sheet) : Showcase.Desk := ⟨d.desk.seat, d.line, d.back⟩

theorem echoes_seat (s : Desk) (l : Str) : s.echoes l = s.seat.echoes l := rfl

theorem echoes_run (s : Desk) (base : Nat → Nat → Byte) (R c : Nat) (l : Str) (hl : Printable l) : (scr base R c [] 0).run (s.echoes l) = scr base R c l l.length := Showcase.echoes_run s.seat base R c l hl

theorem line_run (s : Desk) (base : Nat → Nat → Byte) (R c : Nat) (z : Zip) (hl : Printable z.text) :
    (scr base R c [] 0).run (s.echoes z.text ++ leftwards z.after.length) = scr base R c z.text z.before.length := Showcase.line_run s.seat base R c z hl

theorem name_printable (p : Place) : Printable p.name := by rcases p with _ | _ | _ <;> (intro x hx; revert hx x; decide)

theorem prompt_run (s : Desk) (base : Nat → Nat → Byte) (R : Nat) : ∃ base' c, (scr base R 0 [] 0).run s.prompt = scr base' R c [] 0 := by
  have h2 : Printable bs!"> " := by intro x hx; revert hx x; decide
  have e1 : (scr base R 0 [] 0).run (if s.colour then bs!"\x1b[32m\x1b[1m" else []) = scr base R 0 [] 0 := by
    split
    · exact (sgr_run _ rfl).2.2
    · rfl
  have e2 : (scr base R 0 s.place.name s.place.name.length).run (if s.colour || s.escapes then bs!"\x1b[0m" else []) = scr base R 0 s.place.name s.place.name.length := by
    split
    · exact (sgr_run _ rfl).1
    · rfl
  have e3 : (scr base R 0 [] 0).run s.place.name = scr base R 0 s.place.name s.place.name.length := by
    rw [run_text _ _ _ _ (name_printable _) _ _ (by simp)]
    simp [overwrite]
  have e4 : (scr base R 0 s.place.name s.place.name.length).run bs!"> " = scr base R 0 (s.place.name ++ bs!"> ") (s.place.name ++ bs!"> ").length := by
    rw [run_text _ _ _ _ h2 _ _ (Nat.le_refl _)]
    have : s.place.name.drop (s.place.name.length + 2) = [] := List.drop_eq_nil_of_le (by omega)
    simp [overwrite, this]
  unfold Desk.prompt
  rw [run_append, run_append, run_append, e1, e3, e2, e4, scr_rebase]
  exact ⟨_, _, rfl⟩

/-- An answer and the next prompt. -/
theorem answer_run (s : Desk) {t : Str} (ht : Lines t) (base : Nat → Nat → Byte) (R : Nat) : ∃ base' R' c, (scr base R 0 [] 0).run (t ++ s.prompt) = scr base' R' c [] 0 := by
  rw [run_append]
  by_cases hn : t = []
  · subst hn
    obtain ⟨b, c, h⟩ := prompt_run s base R
    exact ⟨b, R, c, h⟩
  · obtain ⟨b1, R1, h1, _⟩ := run_lines t (scr base R 0 [] 0) base R ht hn ⟨base, 0, rfl, fun _ _ => rfl⟩
    rw [h1]
    obtain ⟨b, c, h⟩ := prompt_run s b1 R1
    exact ⟨b, R1, c, h⟩

theorem shadow_up (d : Sheet) : d.up.shadow = d.shadow.up ∧ ∃ b, d.up.desk = { d.desk with book := b } := by
  obtain ⟨s, z, b⟩ := d
  rcases b with _ | ⟨x, _ | k⟩ <;> exact ⟨rfl, _, rfl⟩

theorem shadow_down (d : Sheet) : d.down.shadow = d.shadow.down ∧ d.down.desk = d.desk := by
  obtain ⟨s, z, b⟩ := d
  rcases b with _ | ⟨x, _ | k⟩ <;> exact ⟨rfl, rfl⟩

/-! ### The state of a session while a line is being typed -/

theorem at_keeps {s : Desk} {w : PWorld} {io : Io} (h : At s w) (hp : s.prompted = s) (hk : Showcase.Keeps w.io io) : At s { w with io := io } := by
  rcases hk with hk | ⟨hc, hk⟩
  · exact at_note h io w.log (by rw [hk]) (by rw [hk])
  · refine at_note h io w.log (by rw [hk]) ?_
    have h1 : s.colour = true := by rw [← h.color]; exact hc
    have h2 : s.escapes = true := by
      have := congrArg Desk.escapes hp
      simp only [Desk.prompted, h1, Bool.true_or] at this
      exact this.symm
    rw [h.escapes, h2, hk]
    simp

structure On (d : Sheet) (p : PProc) : Prop where
  place : At d.desk { p.w with hist := settled p.w.hist }
  wf : History.WF p.w.hist
  looking : Looking d.back p.w.hist
  term : p.term = ⟨d.text, d.line.before.length⟩
  active : p.active = true
  prompted : d.desk.prompted = d.desk

/-- Everything that can be shown can be printed, and the history has room. -/
structure Tidy (d : Sheet) : Prop where
  line : Printable d.text
  book : d.desk.book.Clean
  draft : ∀ x k, d.back = some (x, k) → Printable x
  room : 1 ≤ d.desk.book.room

/-- The screen shows the line, and the cursor is where it should be. -/
def Sees (s0 : Screen) (base : Nat → Nat → Byte) (R c : Nat) (d : Sheet) (io : Io) : Prop := s0.run io.out = scr base R c d.text d.line.before.length

/-- The line is replaced by another one. -/
theorem write_step {s0 : Screen} {base : Nat → Nat → Byte} {R c : Nat} {d d' : Sheet} {p : PProc} {h : History.History} {l : Str} (ho : On d p) (hs : Sees s0 base R c d p.w.io)
    (hw : History.WF h) (hk : Showcase.Kept d'.desk.book (settled h)) (hl : Looking d'.back h) (hseat : d'.desk = { d.desk with book := d'.desk.book }) (hline : d'.line = Zip.ofLine l) (hp : Printable l) :
    On d' (setLine { p with w := { p.w with hist := h } } l) ∧ Sees s0 base R c d' (setLine { p with w := { p.w with hist := h } } l).w.io := by
  have hpr : d'.desk.prompted = d'.desk := by
    have := congrArg Desk.escapes ho.prompted
    rw [hseat]
    simp only [Desk.prompted, Desk.colour] at this ⊢
    rw [this]
  have ht : d'.text = l := by rw [Sheet.text, hline, text_ofLine]
  have a := ho.place
  refine ⟨⟨?_, hw, hl, ?_, ho.active, hpr⟩, ?_⟩
  · have b : At d'.desk { p.w with hist := settled h } := by
      rw [hseat]
      exact at_book a (settled_wf hw) (by rw [hseat] at hk; exact hk) _
    exact at_keeps b hpr (keeps_setLine _ _ _)
  · show Terminal.Term.mk l l.length = _
    rw [ht, hline, before_ofLine]
  · show s0.run (Terminal.setLine p.term p.w.io l).2.out = _
    rw [ht, hline, before_ofLine]
    exact setLine_display s0 base R c p.term p.w.io p.term.line l (by rw [ho.term]; exact before_le _) (.inl rfl) hp (by rw [ho.term]; exact hs)

theorem edit_step (A : App Plugins.St Storage.Volatile) (fuel : Nat) {s0 : Screen} {base : Nat → Nat → Byte} {R c : Nat} {d : Sheet} {p : PProc} {k : Key} (hk : Edits k) (ho : On d p) (ht : Tidy d) (hs : Sees s0 base R c d p.w.io) :
    ∃ q, keypressed A fuel p k = .ok (q, none) ∧ On { d with line := d.line.key k } q ∧ Tidy { d with line := d.line.key k } ∧ Sees s0 base R c { d with line := d.line.key k } q.w.io := by
  obtain ⟨h1, h2⟩ := edits_key hk d.line
  have hrep : Rep p.term d.line := by rw [ho.term]; exact ⟨rfl, rfl⟩
  obtain ⟨g1, t', io', g2, g3, g4⟩ := keypressed_display s0 base R c p.term d.line p.w.io k hrep ht.line h1 hs
  refine ⟨⟨{ p.w with io := io' }, t', p.active⟩, ?_, ⟨?_, ho.wf, ho.looking, ?_, ho.active, ho.prompted⟩, ⟨g1, ht.book, ht.draft, ht.room⟩, g4⟩
  · simp only [keypressed, g2, bind, Except.bind, h2, newCommand]
  · exact at_keeps ho.place ho.prompted (keeps_key g2)
  · exact rep_eq g3

/-! ### The arrows -/

theorem look_tidy {d : Sheet} {b : Book} {draft : Str} {k : Nat} (hb : b.Clean) (hd : Printable draft) (hr : 1 ≤ b.room) : Tidy (d.look b draft k) := by
  refine ⟨?_, hb, ?_, hr⟩
  · simp only [Sheet.look, Sheet.text, text_ofLine]
    generalize hm : min k b.entries.length = m
    have hle : m ≤ b.entries.length := by omega
    cases m with
    | zero => exact hd
    | succ m =>
      simp only [Book.page]
      rw [List.getD_eq_getElem?_getD, List.getElem?_eq_getElem (by rw [List.length_reverse]; omega)]
      exact hb _ (List.mem_reverse.1 (List.getElem_mem _))
  · intro x k h
    simp only [Sheet.look, Option.some.injEq, Prod.mk.injEq] at h
    rw [← h.1]; exact hd

theorem up_tidy {d : Sheet} (h : Tidy d) : Tidy d.up := by
  have h1 := h.line
  have h2 := h.book
  have h3 := h.draft
  have h4 := h.room
  unfold Sheet.up
  split
  · refine look_tidy ?_ h1 ?_
    · unfold Book.spare; split
      · exact h2
      · exact fun e he => h2 e (List.mem_of_mem_drop he)
    · unfold Book.spare; split <;> exact h4
  · exact look_tidy h2 h1 h4
  · rename_i draft k hb
    refine look_tidy ?_ (h3 _ _ hb) h4
    intro e he
    simp only [Book.amend, List.mem_reverse] at he
    rcases List.mem_or_eq_of_mem_set he with he | rfl
    · exact h2 e (List.mem_reverse.1 he)
    · exact h1

theorem down_tidy {d : Sheet} (h : Tidy d) : Tidy d.down := by
  unfold Sheet.down
  split
  · rename_i draft k hb
    exact look_tidy h.book (h.draft _ _ hb) h.room
  · exact ⟨by simp [Sheet.write, Sheet.text, Zip.ofLine, Zip.text, Printable], h.book, h.draft, h.room⟩

theorem arrow_up (A : App Plugins.St Storage.Volatile) (fuel : Nat) {s0 : Screen} {base : Nat → Nat → Byte} {R c : Nat} {d : Sheet} {p : PProc} (ho : On d p) (ht : Tidy d) (hs : Sees s0 base R c d p.w.io) :
    ∃ q, keypressed A fuel p .up = .ok (q, none) ∧ On d.up q ∧ Tidy d.up ∧ Sees s0 base R c d.up q.w.io := by
  have hu := up_tidy ht
  obtain ⟨h', e1, e2, e3, e4, _, l, e6⟩ := Showcase.up_step (s := d.desk.seat) (z := d.line) (back := d.back) ho.wf ho.place.kept ho.looking ht.room
  obtain ⟨g1, b', g2⟩ := shadow_up d
  have g1 : d.up.shadow = Showcase.Desk.up ⟨d.desk.seat, d.line, d.back⟩ := g1
  rw [← g1] at e1 e3 e4 e6
  have e1 : History.previous p.w.hist d.text = .ok (d.up.text, h') := e1
  have e3 : Showcase.Kept d.up.desk.book (settled h') := e3
  have e4 : Looking d.up.back h' := e4
  have e6 : d.up.line = Zip.ofLine l := e6
  have el : d.up.text = l := by rw [Sheet.text, e6, text_ofLine]
  have hb : d.up.desk = { d.desk with book := d.up.desk.book } := by rw [g2]
  obtain ⟨g1, g2⟩ := write_step (l := l) ho hs e2 e3 e4 hb e6 (by rw [← el]; exact hu.line)
  refine ⟨_, ?_, g1, hu, g2⟩
  have e1' : History.previous p.w.hist p.term.line = .ok (l, h') := by rw [ho.term, ← el]; exact e1
  simp only [keypressed, Terminal.keypressed, bind, Except.bind, newCommand, e1']

theorem arrow_down (A : App Plugins.St Storage.Volatile) (fuel : Nat) {s0 : Screen} {base : Nat → Nat → Byte} {R c : Nat} {d : Sheet} {p : PProc} (ho : On d p) (ht : Tidy d) (hs : Sees s0 base R c d p.w.io) :
    ∃ q, keypressed A fuel p .down = .ok (q, none) ∧ On d.down q ∧ Tidy d.down ∧ Sees s0 base R c d.down q.w.io := by
  have hu := down_tidy ht
  obtain ⟨h', e1, e2, e3, e4, _, l, e6⟩ := Showcase.down_step (s := d.desk.seat) (z := d.line) (back := d.back) ho.wf ho.place.kept ho.looking
  obtain ⟨g1, g2⟩ := shadow_down d
  have g1 : d.down.shadow = Showcase.Desk.down ⟨d.desk.seat, d.line, d.back⟩ := g1
  rw [← g1] at e1 e3 e4 e6
  have e1 : History.next p.w.hist = .ok (d.down.text, h') := e1
  have e3 : Showcase.Kept d.down.desk.book (settled h') := e3
  have e4 : Looking d.down.back h' := e4
  have e6 : d.down.line = Zip.ofLine l := e6
  have el : d.down.text = l := by rw [Sheet.text, e6, text_ofLine]
  have hb : d.down.desk = { d.desk with book := d.down.desk.book } := by rw [g2]
  obtain ⟨g1, g2⟩ := write_step (l := l) ho hs e2 e3 e4 hb e6 (by rw [← el]; exact hu.line)
  refine ⟨_, ?_, g1, hu, g2⟩
  rw [el] at e1
  simp only [keypressed, Terminal.keypressed, bind, Except.bind, newCommand, e1]

/-! ### Writing the prompt and the line again -/

theorem prompt_on {d : Sheet} {w : PWorld} (ha : At d.desk { w with hist := settled w.hist }) (hp : d.desk.prompted = d.desk) :
    ∃ io, prompt w = .ok { w with io := io } ∧ At d.desk { w with hist := settled w.hist, io := io } ∧ io.out = w.io.out ++ d.desk.prompt := by
  obtain ⟨w', h1, h2, h3⟩ := prompt_here ha
  obtain ⟨io, rfl, _⟩ := Processor.prompt_io h1
  rw [hp] at h2
  refine ⟨io, ?_, h2, h3⟩
  have hx : w.exit = false := ha.exit
  unfold prompt at h1 ⊢
  simp only [hx, Bool.false_eq_true, if_false] at h1 ⊢
  split at h1
  · rename_i m k q e
    rw [← show _ = io from congrArg World.io (Except.ok.inj h1)]
  · cases h1

theorem redraw_step {s0 : Screen} {base : Nat → Nat → Byte} {R : Nat} {d : Sheet} {p : PProc} (text : Str) (ho : On d p) (ht : Tidy d) (hs : s0.run (p.w.io.put text).out = scr base R 0 [] 0) :
    ∃ q, redraw { p with w := p.w.put text } p.term.line = .ok q ∧ On (d.write d.text) q ∧ Tidy (d.write d.text) ∧
      ∃ base' c, (scr base R 0 [] 0).run d.desk.prompt = scr base' R c [] 0 ∧ Sees s0 base' R c (d.write d.text) q.w.io := by
  have ha : At d.desk { p.w.put text with hist := settled (p.w.put text).hist } := at_keeps ho.place ho.prompted (keeps_put _ _)
  obtain ⟨io, e1, e2, e3⟩ := prompt_on ha ho.prompted
  obtain ⟨base', c, e4⟩ := prompt_run d.desk base R
  have hd : s0.run io.out = scr base' R c [] 0 := by
    rw [e3, run_append]
    show Screen.run (s0.run (p.w.io.put text).out) _ = _
    rw [hs, e4]
  have htext : (d.write d.text).text = d.text := by simp only [Sheet.write, Sheet.text, text_ofLine]
  have hbl : (d.write d.text).line.before.length = d.text.length := by simp only [Sheet.write, before_ofLine]
  have hl : p.term.line = d.text := by rw [ho.term]
  refine ⟨setLine { p with w := { p.w.put text with io := io }, term := Terminal.resetCursor p.term } p.term.line, ?_, ⟨?_, ho.wf, ho.looking, ?_, ho.active, ho.prompted⟩, ⟨by rw [htext]; exact ht.line, ht.book, ht.draft, ht.room⟩, base', c, e4, ?_⟩
  · simp only [redraw, e1, bind, Except.bind]
  · exact at_keeps e2 ho.prompted (keeps_setLine _ _ _)
  · show Terminal.Term.mk p.term.line p.term.line.length = _
    rw [htext, hbl, hl]
  · show s0.run (Terminal.setLine (Terminal.resetCursor p.term) io p.term.line).2.out = _
    rw [htext, hbl, hl]
    exact setLine_display s0 base' R c (Terminal.resetCursor p.term) io [] d.text (Nat.zero_le _) (.inr (Nat.zero_le _)) ht.line hd

theorem clear_step (A : App Plugins.St Storage.Volatile) (fuel : Nat) {s0 : Screen} {base : Nat → Nat → Byte} {R c : Nat} {d : Sheet} {p : PProc} (ho : On d p) (ht : Tidy d) (hs : Sees s0 base R c d p.w.io) :
    ∃ q, keypressed A fuel p .clear = .ok (q, none) ∧ On (d.write d.text) q ∧ Tidy (d.write d.text) ∧
      ∃ base' R' c', (scr base R c [] 0).run (wipe ++ d.desk.prompt) = scr base' R' c' [] 0 ∧ Sees s0 base' R' c' (d.write d.text) q.w.io := by
  obtain ⟨q, h1, h2, h3, base', c', h4, h5⟩ := redraw_step (s0 := s0) (base := fun _ _ => b%' ') (R := 0) clearScreen ho ht (by rw [run_put, hs]; exact clear_screen _ base R c _ _ rfl)
  refine ⟨q, ?_, h2, h3, base', 0, c', ?_, h5⟩
  · simp only [keypressed, Terminal.keypressed, bind, Except.bind, newCommand, h1]
  · rw [run_append, wipe_run, h4]

/-! ### One key -/

/-- A key is handled, and what it leads to is what it should. -/
def Steps (f : Bool) (A : App Plugins.St Storage.Volatile) (fuel : Nat) (s0 : Screen) (base : Nat → Nat → Byte) (R c : Nat) (d : Sheet) (p : PProc) (k : Key) : Prop :=
  ∃ q d' o, keypressed A fuel p k = .ok (q, none) ∧ On d' q ∧ Tidy d' ∧ (∀ ks d'' o', Drafting f d' ks d'' o' → Drafting f d (k :: ks) d'' (o ++ o')) ∧
    ∃ base' R' c', (scr base R c [] 0).run o = scr base' R' c' [] 0 ∧ Sees s0 base' R' c' d' q.w.io

/-- It ends the session. -/
def Ends (A : App Plugins.St Storage.Volatile) (fuel : Nat) (s0 : Screen) (base : Nat → Nat → Byte) (R c : Nat) (p : PProc) (k : Key) (o : Str) : Prop :=
  ∃ q, keypressed A fuel p k = .ok (q, none) ∧ q.w.exit = true ∧ q.w.app.ub = false ∧ q.w.app.stopped = true ∧ s0.run q.w.io.out = (scr base R c [] 0).run o

theorem written (d : Sheet) {l : Str} (hp : Printable l) (ht : Tidy d) : Tidy (d.write l) := ⟨by simpa only [Sheet.write, Sheet.text, text_ofLine] using hp, ht.book, ht.draft, ht.room⟩

theorem rewrite_step {s0 : Screen} {base : Nat → Nat → Byte} {R c : Nat} {d : Sheet} {p : PProc} {l : Str} (ho : On d p) (hs : Sees s0 base R c d p.w.io) (hp : Printable l) :
    On (d.write l) (setLine p l) ∧ Sees s0 base R c (d.write l) (setLine p l).w.io :=
  write_step (d' := d.write l) (h := p.w.hist) ho hs ho.wf ho.place.kept ho.looking rfl rfl hp

theorem tab_step (f : Bool) (A : App Plugins.St Storage.Volatile) (fuel : Nat) {s0 : Screen} {base : Nat → Nat → Byte} {R c : Nat} {d : Sheet} {p : PProc} (hf : 2 * d.text.length + 2 ≤ fuel) (ho : On d p) (ht : Tidy d) (hs : Sees s0 base R c d p.w.io) :
    Steps f A fuel s0 base R c d p (.ascii 9) := by
  have hl : p.term.line = d.text := by rw [ho.term]
  have ha := ho.place
  obtain ⟨cs, hcs⟩ := C63_defined_partial A.plat p.w d.text (by rw [show p.w.tree = _ from ha.good.tree]; exact (tree_kids _).1) (by obtain ⟨_, _, e, _⟩ := locate_place ha; rw [show p.w.tree.locate p.w.current = _ from e]; rfl)
    (.inr fun c hc => by have := ht.line c hc; simp [printable] at this; omega) fuel hf
  have hoff : d.desk.Offers d.text cs := offers_here ha (w := { p.w with hist := settled p.w.hist }) (p := A.plat) (fuel := fuel) hcs
  have hpr : ∀ c ∈ cs, Printable c := completions_printable (by rw [show p.w.tree = _ from ha.good.tree]; exact (tree_kids _).2) hcs
  have key : ∀ q, tab A fuel p = .ok q → keypressed A fuel p (.ascii 9) = .ok (q, none) := by
    intro q hq
    simp only [keypressed, Terminal.keypressed, show ((9 : Byte) = b%'\t') = True by simp, if_true, bind, Except.bind, newCommand]
    rw [show ({ p with w := { p.w with io := p.w.io } } : PProc) = p from rfl, hq]
  match cs, hoff, hpr, hcs with
  | [], hoff, _, hcs =>
    have htab : tab A fuel p = .ok p := by simp only [tab, hl, hcs, bind, Except.bind]
    exact ⟨p, d, [], key _ htab, ho, ht, fun ks d'' o' h => .tabNone hoff h, base, R, c, rfl, hs⟩
  | [x], hoff, hpr, hcs =>
    have htab : tab A fuel p = .ok (setLine p (x ++ bs!" ")) := by simp only [tab, hl, hcs, bind, Except.bind]
    have hx : Printable (x ++ bs!" ") := printable_append.2 ⟨hpr x (by simp), by intro y hy; revert hy y; decide⟩
    obtain ⟨g1, g2⟩ := rewrite_step ho hs hx
    exact ⟨_, d.write (x ++ bs!" "), [], key _ htab, g1, written d hx ht, fun ks d'' o' h => .tabOne hoff h, base, R, c, rfl, g2⟩
  | x :: y :: cs, hoff, hpr, hcs =>
    obtain ⟨pre, hpre, hp1, hp2⟩ := C38_longest_common_prefix (x :: y :: cs) (by simp)
    have htab : tab A fuel p = if pre.length > d.text.length then .ok (setLine p pre) else redraw { p with w := (p.w.put bs!"\n").put (items (x :: y :: cs) ++ bs!"\n") } d.text := by
      simp only [tab, hl, hcs, hpre, bind, Except.bind]
    by_cases hlen : pre.length > d.text.length
    · rw [if_pos hlen] at htab
      have hx : Printable pre := fun b hb => hpr x (by simp) b ((hp1 x (by simp)).subset hb)
      obtain ⟨g1, g2⟩ := rewrite_step ho hs hx
      exact ⟨_, d.write pre, [], key _ htab, g1, written d hx ht, fun ks d'' o' h => .tabMore hoff ⟨hp1, hp2⟩ hlen h, base, R, c, rfl, g2⟩
    · rw [if_neg hlen] at htab
      have e1 : (scr base R c [] 0).run (d.desk.echoes d.text ++ bs!"\n") = s0.run (p.w.io.put bs!"\n").out := by
        rw [run_append, echoes_run _ _ _ _ _ ht.line, run_put, hs, feed_run, feed_run]
      obtain ⟨base1, e2⟩ := Props.listing_row s0 p.w.io base R c d.text d.line.before.length (x :: y :: cs) hs hpr
      have e3 : s0.run (p.w.io.put (bs!"\n" ++ (items (x :: y :: cs) ++ bs!"\n"))).out = scr base1 (R + 1 + 1) 0 [] 0 := by
        rw [← e2]; simp [Io.put]
      obtain ⟨q, h1, h2, h3, base', c', h4, h5⟩ := redraw_step _ ho ht e3
      refine ⟨q, d.write d.text, d.desk.echoes d.text ++ bs!"\n" ++ (x :: y :: cs).flatMap (bs!"\t" ++ ·) ++ bs!"\n" ++ d.desk.prompt, key _ ?_, h2, h3, ?_, base', _, c', ?_, h5⟩
      · rw [htab, ← hl, ← h1]
        simp [World.put, Io.put]
      · intro ks d'' o' h
        exact .tabList hoff ⟨hp1, hp2⟩ (by omega) h
      · rw [run_append, ← h4, ← e2, List.append_assoc (d.desk.echoes d.text ++ bs!"\n"), run_append, e1, run_put _ _ (items (x :: y :: cs) ++ bs!"\n")]
        rfl

theorem enter_step (pf : Platform) (f : Bool) (fuel : Nat) {s0 : Screen} {base : Nat → Nat → Byte} {R c : Nat} {d : Sheet} {p : PProc}
    (hw : Within pf (fuel + 1) d.desk d.text) (hn : ¬ Fails f d.desk d.text) (ho : On d p) (ht : Tidy d) (hs : Sees s0 base R c d p.w.io) :
    (¬ Quits d.desk d.text ∧ Steps f (Plugins.app pf f) (fuel + 2) s0 base R c d p .ret) ∨
    (Quits d.desk d.text ∧ Ends (Plugins.app pf f) (fuel + 2) s0 base R c p .ret (d.desk.echoes d.text ++ bs!"\r\n" ++ farewell)) := by
  have hl : p.term.line = d.text := by rw [ho.term]
  have ha : At d.desk { p.w.put bs!"\r\n" with hist := settled (p.w.put bs!"\r\n").hist } := at_keeps ho.place ho.prompted (keeps_put _ _)
  have e1 : (scr base R c [] 0).run (d.desk.echoes d.text ++ bs!"\r\n") = s0.run (p.w.io.put bs!"\r\n").out := by
    rw [run_append, echoes_run _ _ _ _ _ ht.line, run_put, hs, crlf_run, crlf_run]
  have e2 : s0.run (p.w.io.put bs!"\r\n").out = scr (scr base R c d.text 0).cell (R + 1) 0 [] 0 := by rw [run_put, hs, crlf_run]
  have key : keypressed (Plugins.app pf f) (fuel + 2) p .ret = (do
      let (w, x) ← feed (Plugins.app pf f) (fuel + 2) d.text (p.w.put bs!"\r\n")
      match x with
      | some e => .ok (⟨w, ⟨[], 0⟩, false⟩, some e)
      | none => do
        let w ← prompt w
        .ok (⟨w, ⟨[], 0⟩, true⟩, none)) := by
    simp only [keypressed, Terminal.keypressed, bind, Except.bind, newCommand, hl]
    rfl
  have shown : ∀ (s' : Desk) {t : Str} {io : Io}, Lines t → io.out = (p.w.io.put bs!"\r\n").out ++ t ++ s'.prompt →
      ∃ base' R' c', (scr base R c [] 0).run (d.desk.echoes d.text ++ bs!"\r\n" ++ t ++ s'.prompt) = scr base' R' c' [] 0 ∧ s0.run io.out = scr base' R' c' [] 0 := by
    intro s' t io h1 h2
    obtain ⟨base', R', c', h3⟩ := answer_run s' h1 (scr base R c d.text 0).cell (R + 1)
    have h4 : (s0.run (p.w.io.put bs!"\r\n").out).run (t ++ s'.prompt) = scr base' R' c' [] 0 := by rw [e2, h3]
    refine ⟨base', R', c', ?_, ?_⟩
    · rw [List.append_assoc _ t, run_append, e1, h4]
    · rw [h2, List.append_assoc, run_append, h4]
  by_cases hblank : Lex.Line d.text []
  · have hnq : ¬ Quits d.desk d.text := by
      intro h
      cases h with
      | exit h => cases line_same hblank h
      | again h _ _ => exact (recalls_kind h).1 hblank
    obtain ⟨io, p1, p2, p3⟩ := prompt_on ha ho.prompted
    obtain ⟨base', R', c', g1, g2⟩ := shown d.desk lines_nil (by rw [p3]; simp [World.put])
    refine .inl ⟨hnq, ⟨{ p.w.put bs!"\r\n" with io := io }, ⟨[], 0⟩, true⟩, ⟨d.desk, ⟨[], []⟩, d.back⟩, d.desk.echoes d.text ++ bs!"\r\n" ++ [] ++ d.desk.prompt, ?_, ⟨p2, ho.wf, ho.looking, rfl, rfl, ho.prompted⟩,
      ⟨by simp [Sheet.text, Zip.text, Printable], ht.book, ht.draft, ht.room⟩, ?_, base', R', c', g1, g2⟩
    · rw [key, feed_blank _ hblank]
      simp only [bind, Except.bind, p1]
    · intro ks d'' o' h
      have h' : Drafting f ⟨d.desk.prompted, ⟨[], []⟩, d.back⟩ ks d'' o' := by rw [ho.prompted]; exact h
      exact .enter (.blank hblank) (.inl ⟨hblank, rfl⟩) h'
  · obtain ⟨toks, htoks⟩ : ∃ toks, Lex.Line d.text toks := ⟨_, (split_iff _ _).1 (C03_split_total d.text).choose_spec⟩
    have hne : toks ≠ [] := by rintro rfl; exact hblank htoks
    have hfeed : feed (Plugins.app pf f) (fuel + 2) d.text (p.w.put bs!"\r\n") = feed (Plugins.app pf f) (fuel + 2) d.text { p.w.put bs!"\r\n" with hist := settled (p.w.put bs!"\r\n").hist } := by
      rw [feed_eq _ htoks hne, feed_eq _ htoks hne]
      have : History.newCommand (settled (p.w.put bs!"\r\n").hist) d.text = History.newCommand (p.w.put bs!"\r\n").hist d.text := settled_command ho.wf _
      simp only [this]
      rfl
    rcases line_step pf f (fuel + 1) ha hw with ⟨w', g1, g2, g3, g4, g5, g6, _⟩ | ⟨g1, _⟩ | ⟨w', s', t, _, g2, g3, g4, g5⟩
    · refine .inr ⟨g1, ⟨w', ⟨[], 0⟩, true⟩, ?_, g4, g6, g5, ?_⟩
      · rw [key, hfeed, g2]
        simp only [bind, Except.bind, prompt, g4, if_true]
      · show s0.run w'.io.out = _
        rw [g3, run_append, run_append _ _ (farewell), e1]
        rfl
    · exact absurd g1 hn
    · obtain ⟨l1, l2, l3⟩ := answer_lines g3 ht.book ht.line
      obtain ⟨w2, p1, p2, p3⟩ := prompt_here g4
      have hset : settled w2.hist = w2.hist := looking_none p2.kept.mode
      obtain ⟨base', R', c', k1, k2⟩ := shown s' (io := w2.io) l1 (by rw [p3, g5]; rfl)
      refine .inl ⟨fun h => answer_no_quit h g3, ⟨w2, ⟨[], 0⟩, true⟩, ⟨s'.prompted, ⟨[], []⟩, none⟩, d.desk.echoes d.text ++ bs!"\r\n" ++ t ++ s'.prompt, ?_, ⟨?_, p2.hist, p2.kept.mode, rfl, rfl, desk_prompted _⟩,
        ⟨by simp [Sheet.text, Zip.text, Printable], l2, by simp, ?_⟩, ?_, base', R', c', k1, k2⟩
      · rw [key, hfeed, g2]
        simp only [bind, Except.bind, p1]
      · show At s'.prompted { w2 with hist := settled w2.hist }
        rw [hset]; exact p2
      · show 1 ≤ s'.prompted.book.room
        have : s'.prompted.book.room = s'.book.room := rfl
        rw [this, l3]; exact ht.room
      · intro ks d'' o' h
        exact .enter g3 (.inr ⟨hblank, rfl⟩) h

/-- A line whose behaviour should be undefined leads to undefined behaviour, of the program or of a plugin. -/
theorem fail_step (pf : Platform) (f : Bool) (fuel : Nat) {d : Sheet} {p : PProc} (hw : Within pf (fuel + 1) d.desk d.text) (hf : Fails f d.desk d.text) (ho : On d p) :
    (∃ u, keypressed (Plugins.app pf f) (fuel + 2) p .ret = .error (.ub u)) ∨ ∃ q, keypressed (Plugins.app pf f) (fuel + 2) p .ret = .ok (q, none) ∧ q.w.app.ub = true := by
  have hl : p.term.line = d.text := by rw [ho.term]
  have ha : At d.desk { p.w.put bs!"\r\n" with hist := settled (p.w.put bs!"\r\n").hist } := at_keeps ho.place ho.prompted (keeps_put _ _)
  obtain ⟨toks, htoks⟩ : ∃ toks, Lex.Line d.text toks := ⟨_, (split_iff _ _).1 (C03_split_total d.text).choose_spec⟩
  rcases line_step pf f (fuel + 1) ha hw with ⟨_, e, _⟩ | ⟨_, e⟩ | ⟨_, _, _, e, _⟩
  · exact (fails_no_quits hf e).elim
  · have hne : toks ≠ [] := by
      rintro rfl
      rw [feed_blank _ htoks] at e
      obtain ⟨i, P, g1, _⟩ := locate_place ha
      rcases e with ⟨w', e, h | ⟨_, h⟩⟩ | ⟨u, e⟩
      · cases e
        rw [ha.ub] at h; cases h
      · cases e
        rw [g1] at h; cases h
      · cases e
    have hfeed : feed (Plugins.app pf f) (fuel + 2) d.text (p.w.put bs!"\r\n") = feed (Plugins.app pf f) (fuel + 2) d.text { p.w.put bs!"\r\n" with hist := settled (p.w.put bs!"\r\n").hist } := by
      rw [feed_eq _ htoks hne, feed_eq _ htoks hne]
      have : History.newCommand (settled (p.w.put bs!"\r\n").hist) d.text = History.newCommand (p.w.put bs!"\r\n").hist d.text := settled_command ho.wf _
      simp only [this]
      rfl
    have key : keypressed (Plugins.app pf f) (fuel + 2) p .ret = (do
        let (w, x) ← feed (Plugins.app pf f) (fuel + 2) d.text (p.w.put bs!"\r\n")
        match x with
        | some e => .ok (⟨w, ⟨[], 0⟩, false⟩, some e)
        | none => do
          let w ← prompt w
          .ok (⟨w, ⟨[], 0⟩, true⟩, none)) := by
      simp only [keypressed, Terminal.keypressed, bind, Except.bind, newCommand, hl]
      rfl
    rw [key, hfeed]
    rcases e with ⟨w', h1, h2⟩ | ⟨u, h⟩
    · rw [h1]
      simp only [bind, Except.bind]
      rcases h2 with h2 | ⟨h2, h3⟩
      · rcases prompt_kinds w' with ⟨io, h⟩ | h
        · exact .inr ⟨_, by rw [h], h2⟩
        · exact .inl ⟨_, by rw [h]⟩
      · exact .inl ⟨.dangling, by simp only [prompt, h2, Bool.false_eq_true, if_false, h3]⟩
    · exact .inl ⟨u, by rw [h]; rfl⟩
  · exact absurd hf e

theorem eof_step (pf : Platform) (f : Bool) (fuel : Nat) {s0 : Screen} {base : Nat → Nat → Byte} {R c : Nat} {d : Sheet} {p : PProc} (ho : On d p) (ht : Tidy d) (hs : Sees s0 base R c d p.w.io) :
    Ends (Plugins.app pf f) fuel s0 base R c p .eof (d.desk.echoes d.text ++ leftwards d.line.after.length ++ farewell) := by
  have hg : ∃ cmds, History.getCommands p.w.hist = .ok cmds := by
    unfold History.getCommands
    split
    · rename_i hm
      have := (ho.wf.browse hm)
      split
      · rename_i he; rw [he] at this; simp at this
      · exact ⟨_, rfl⟩
    · exact ⟨_, rfl⟩
  obtain ⟨cmds, hg⟩ := hg
  have hx : ∃ w', exitSession (Plugins.app pf f) p.w = .ok (w', none) ∧ w'.io.out = p.w.io.out ++ farewell ∧ w'.exit = true ∧ w'.app.ub = false ∧ w'.app.stopped = true := by
    have ha : p.w.app.ub = false := ho.place.ub
    refine ⟨_, by
      simp only [exitSession, Plugins.app, Plugins.writes, callAction, optAction, World.effect, World.note, List.foldl_cons, List.foldl_nil, World.act, World.put, Io.put, hg, Bool.false_eq_true, if_false, if_true]
      rfl, ?_, rfl, ?_, rfl⟩
    · simp [farewell]
    · exact ha
  obtain ⟨w', h1, h2, h3, h4, h4'⟩ := hx
  refine ⟨{ p with w := w' }, ?_, h3, h4, h4', ?_⟩
  · simp only [keypressed, Terminal.keypressed, bind, Except.bind, newCommand]
    rw [show ({ p.w with io := p.w.io } : PWorld) = p.w from rfl, h1]
  · show s0.run w'.io.out = _
    have e : (scr base R c [] 0).run (d.desk.echoes d.text ++ leftwards d.line.after.length) = scr base R c d.text d.line.before.length := line_run _ _ _ _ _ ht.line
    rw [h2, run_append, run_append, hs, e]

end Verif.Workbench
