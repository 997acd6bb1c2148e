import Verif.Spec.Workbench
import Verif.Props.PluginsText
import Verif.Props.Showcase

set_option linter.unusedSimpArgs false

/-!
# C135: the commands of the plugin manager, proofs
-/

namespace Verif.Workbench
open Spec
open Props (plat C05_signed_rejects_partial)
open FromString (Value)
open Plugins (Plug Item Fn int str number fits sorted writes calculates registry rootInfo rootKids)
open Plugged (PWorld Offers kidsOf kidsOf_cons)
open Script (Fine fine_tail)
open Showcase (Book Bang Readable Recalls IsInt Small Shows Dictionary enter)

abbrev WRes := Res Plugins.St Storage.Volatile

/-- The session is there. -/
def Located : Place → PWorld → Prop
  | .root, w => w.current = 0
  | .plug p, w => ∃ e ∈ w.app.loaded, e.plug = p ∧ w.current = e.menu

/-- The session is in this state. -/
structure At (s : Desk) (w : PWorld) : Prop where
  good : Plugged.Good w
  loaded : w.app.loaded.map (·.plug) = s.loaded
  place : Located s.place w
  offers : Offers w s.choice
  exit : w.exit = false
  ub : w.app.ub = false
  stopped : w.app.stopped = false
  color : w.io.style.color = s.colour
  escapes : (w.io.style.forced || w.io.style.tty) = s.escapes
  hist : History.WF w.hist
  kept : Showcase.Kept s.book w.hist

structure Step (s : Desk) (r : Reply) (w w' : PWorld) : Prop where
  next : r ≠ .undefined → ¬ Pulls s r → At (s.apply r) w'
  ub : r = .undefined → w'.app.ub = true
  pulled : Pulls s r → w'.exit = false ∧ w'.tree.locate w'.current = none
  out : w'.io.out = w.io.out ++ r.text s
  hist : w'.hist = w.hist

theorem called_name (p : Plug) : called p = p.name := by cases p <;> rfl

theorem no_pull {s : Desk} {r : Reply} (h : ∀ n, r ≠ .unloads n) : ¬ Pulls s r := fun ⟨_, _, e⟩ => h _ e

/-! ### What the functions of the commands do -/

theorem step_writes {s : Desk} {w : PWorld} (h : At s w) (t : Str) (ev : Event) : Step s (.says t) w ((w.effect (writes w.app t)).note ev) :=
  ⟨fun _ _ => ⟨Plugged.good_same h.good rfl rfl rfl rfl rfl, h.loaded, by have := h.place; revert this; show Located s.place _ → Located s.place _; cases s.place <;> exact id, h.offers, h.exit, h.ub, h.stopped, h.color, h.escapes, h.hist, h.kept⟩,
    fun h => (by cases h), fun ⟨_, _, h⟩ => (by cases h), rfl, rfl⟩

theorem step_nothing {s : Desk} {w : PWorld} (h : At s w) (ev : Event) : Step s (.says []) w ((w.effect ⟨w.app, [], none⟩).note ev) :=
  ⟨fun _ _ => ⟨Plugged.good_same h.good rfl rfl rfl rfl rfl, h.loaded, by have := h.place; revert this; show Located s.place _ → Located s.place _; cases s.place <;> exact id, h.offers, h.exit, h.ub, h.stopped, h.color, h.escapes, h.hist, h.kept⟩,
    fun h => (by cases h), fun ⟨_, _, h⟩ => (by cases h), by simp [Reply.text, World.effect, World.note], rfl⟩

theorem step_undefined {s : Desk} {w : PWorld} (ev : Event) : Step s .undefined w ((w.effect ⟨{ w.app with ub := true }, [], none⟩).note ev) :=
  ⟨fun h => absurd rfl h, fun _ => rfl, fun ⟨_, _, h⟩ => (by cases h), by simp [Reply.text, World.effect, World.note], rfl⟩

theorem step_color {s : Desk} {w : PWorld} (h : At s w) (on : Bool) (ev : Event) :
    Step s (.chooses on) w ((w.effect ⟨w.app, [.out (if on then bs!"Colors ON\n" else bs!"Colors OFF\n"), .color on] ++ (if on then [.disable 5, .enable 6] else [.enable 5, .disable 6]), none⟩).note ev) := by
  have hk := (Plugged.keeps_color (pf := plat) (w := w) (c := Plugged.switchCmd on) (vals := []) on (by cases on <;> rfl) none (if on then bs!"Colors ON\n" else bs!"Colors OFF\n") h.good).1
  rw [Plugged.color_world h.good] at hk ⊢
  refine ⟨fun _ _ => ⟨Plugged.good_same hk rfl rfl rfl rfl rfl, h.loaded, ?_, ?_, h.exit, h.ub, h.stopped, ?_, h.escapes, h.hist, h.kept⟩, fun h => (by cases h), fun ⟨_, _, h⟩ => (by cases h), ?_, rfl⟩
  · have := h.place; revert this; show Located s.place _ → Located s.place _; cases s.place <;> exact id
  · cases on <;> exact ⟨rfl, rfl⟩
  · cases on <;> rfl
  · cases on <;> rfl

theorem load_eq (b : Bool) (st : Plugins.St) (p : Plug) :
    Plugins.load b st p.name = ⟨{ st with loaded := st.loaded ++ [⟨p, st.next⟩], next := st.next + 4 }, [.out (bs!"Plugin " ++ p.name ++ bs!" loaded\n"), .insert 0 (Item.forest ⟨p, st.next⟩ .nil)], none⟩ := by
  unfold Plugins.load registry
  cases b <;> cases p <;> rfl

theorem step_load {s : Desk} {w : PWorld} (h : At s w) (b : Bool) (p : Plug) (ev : Event) : Step s (.loads p) w ((w.effect (Plugins.load b w.app p.name)).note ev) := by
  have hk := (Plugged.keeps_load (pf := plat) (b := b) (w := w) (c := Plugged.loadCmd) (n := p.name) rfl none h.good).1
  rw [load_eq] at hk ⊢
  have key : ∀ w0 : PWorld, ∃ t u g, w0.act (.insert 0 (Item.forest ⟨p, w.app.next⟩ .nil)) = { w0 with tree := t, used := u, gen := g } := by
    intro w0; simp only [World.act]; split
    · exact ⟨_, _, _, rfl⟩
    · exact ⟨_, _, _, rfl⟩
  obtain ⟨t, u, g, hw⟩ := key { w with app := { w.app with loaded := w.app.loaded ++ [⟨p, w.app.next⟩], next := w.app.next + 4 }, io := w.io.put (bs!"Plugin " ++ p.name ++ bs!" loaded\n") }
  have he : w.effect ⟨{ w.app with loaded := w.app.loaded ++ [⟨p, w.app.next⟩], next := w.app.next + 4 }, [.out (bs!"Plugin " ++ p.name ++ bs!" loaded\n"), .insert 0 (Item.forest ⟨p, w.app.next⟩ .nil)], none⟩ =
      { w with app := { w.app with loaded := w.app.loaded ++ [⟨p, w.app.next⟩], next := w.app.next + 4 }, io := w.io.put (bs!"Plugin " ++ p.name ++ bs!" loaded\n"), tree := t, used := u, gen := g } := hw
  rw [he] at hk ⊢
  refine ⟨fun _ _ => ⟨Plugged.good_same hk rfl rfl rfl rfl rfl, ?_, ?_, h.offers, h.exit, h.ub, h.stopped, h.color, h.escapes, h.hist, h.kept⟩, fun h => (by cases h), fun ⟨_, _, h⟩ => (by cases h), ?_, rfl⟩
  · show List.map (fun x : Item => x.plug) (w.app.loaded ++ [(⟨p, w.app.next⟩ : Item)]) = s.loaded ++ [p]
    rw [List.map_append, h.loaded]; rfl
  · have := h.place; revert this; show Located s.place _ → Located s.place _
    cases s.place with
    | root => exact id
    | plug q => rintro ⟨e, h1, h2, h3⟩; exact ⟨e, List.mem_append_left _ h1, h2, h3⟩
  · rw [show (Reply.loads p).text s = bs!"Plugin " ++ p.name ++ bs!" loaded\n" by show _ ++ called p ++ _ = _; rw [called_name]]; rfl

theorem step_unload {s : Desk} {w : PWorld} (h : At s w) (n : Str) (ev : Event) : Step s (.unloads n) w ((w.effect (Plugins.unload w.app n)).note ev) := by
  have hk := (Plugged.keeps_unload (pf := plat) (w := w) (c := Plugged.unloadCmd) (n := n) rfl none h.good).1
  have hio : (w.effect (Plugins.unload w.app n)).io = _ := Plugged.drops_io (w.app.loaded.filter (fun e => e.plug.name == n)) _
  obtain ⟨g, io, hu⟩ := Plugged.unload_world h.good n
  rw [hu] at hk hio ⊢
  have hio : io = w.io.put ((w.app.loaded.filter (fun e => e.plug.name == n)).flatMap (fun e => bs!"Plugin " ++ e.plug.name ++ bs!" unloaded\n")) := hio
  have hg := Plugged.good_same (w' := ({ w with app := { w.app with loaded := w.app.loaded.filter (fun e => e.plug.name != n) }, tree := ⟨rootInfo, rootKids (kidsOf (w.app.loaded.filter (fun e => e.plug.name != n)))⟩, gen := g, io := io } : PWorld).note ev) hk rfl rfl rfl rfl rfl
  have hcol : io.style = w.io.style := by rw [hio]; rfl
  refine ⟨fun _ hp => ⟨hg, ?_, ?_, h.offers, h.exit, h.ub, h.stopped, ?_, ?_, h.hist, h.kept⟩, fun h => (by cases h), ?_, ?_, rfl⟩
  · show (w.app.loaded.filter (fun e => e.plug.name != n)).map (·.plug) = s.loaded.filter fun p => called p != n
    rw [← h.loaded, List.filter_map]
    congr 2
    funext e
    simp [called_name]
  · have hpl := h.place
    show Located s.place _
    cases hs : s.place with
    | root => rw [hs] at hpl; exact hpl
    | plug q =>
      rw [hs] at hpl
      obtain ⟨e, h1, h2, h3⟩ := hpl
      refine ⟨e, List.mem_filter.2 ⟨h1, ?_⟩, h2, h3⟩
      have : e.plug.name ≠ n := fun hh => hp ⟨q, hs, by rw [called_name, ← h2, hh]⟩
      simpa using this
  · show io.style.color = _; rw [hcol]; exact h.color
  · show (io.style.forced || io.style.tty) = _; rw [hcol]; exact h.escapes
  · rintro ⟨q, hs, hn⟩
    cases hn
    have hpl := h.place
    rw [hs] at hpl
    obtain ⟨e, he, h2, hcur⟩ := hpl
    refine ⟨h.exit, Plugged.tree_locate_none ?_⟩
    have hmi := hg.menuIds
    rw [hmi]
    show w.current ∉ 0 :: (w.app.loaded.filter (fun e => e.plug.name != called q)).map (·.menu)
    have h7 := (h.good.above e he).1
    rw [hcur]
    simp only [List.mem_cons, List.mem_map, List.mem_filter, not_or, not_exists]
    refine ⟨fun hh => by have : e.menu = 0 := hh; omega, fun y ⟨⟨hy, hyn⟩, hye⟩ => ?_⟩
    have hye : y.menu = e.menu := hye
    rcases Plugged.spaced_ne h.good.spaced y hy e he with rfl | h | h
    · simp [h2, called_name] at hyn
    · omega
    · omega
  · show io.out = _
    rw [hio]
    show w.io.out ++ _ = w.io.out ++ unloadings (s.loaded.filter fun p => called p == n)
    rw [unloadings, ← h.loaded, List.filter_map, List.flatMap_map]
    congr 1
    have : (fun e : Item => e.plug.name == n) = ((fun p => called p == n) ∘ fun x : Item => x.plug) := by funext e; simp [called_name]
    rw [this]
    congr 1
    funext e
    simp [called_name]

theorem step_root {s : Desk} {w : PWorld} (h : At s w) : Step s (.goes .root) w { w with current := 0 } :=
  ⟨fun _ _ => ⟨Plugged.good_same h.good rfl rfl rfl rfl rfl, h.loaded, rfl, h.offers, h.exit, h.ub, h.stopped, h.color, h.escapes, h.hist, h.kept⟩, fun h => (by cases h), fun ⟨_, _, h⟩ => (by cases h), by simp [Reply.text], rfl⟩

theorem step_plug {s : Desk} {w : PWorld} (h : At s w) {e : Item} (he : e ∈ w.app.loaded) : Step s (.goes (.plug e.plug)) w { w with current := e.menu } :=
  ⟨fun _ _ => ⟨Plugged.good_same h.good rfl rfl rfl rfl rfl, h.loaded, ⟨e, he, rfl, rfl⟩, h.offers, h.exit, h.ub, h.stopped, h.color, h.escapes, h.hist, h.kept⟩, fun h => (by cases h), fun ⟨_, _, h⟩ => (by cases h), by simp [Reply.text], rfl⟩

/-! ### One command -/

section
variable {pf : Platform} {b : Bool}

/-- The command does what the row of the table says. -/
def Serves (pf : Platform) (b : Bool) (s : Desk) (c : Cmd) (row : Str × (List Str → Reply → Prop)) : Prop := ∀ t rest (w : PWorld), At s w → Fine pf rest →
  (∃ r w', t = row.1 ∧ row.2 rest r ∧ execCmd (Plugins.app pf b) c (t :: rest) w = .ok (w', .found) ∧ Step s r w w') ∨
  ((∀ r, t = row.1 → ¬ row.2 rest r) ∧ execCmd (Plugins.app pf b) c (t :: rest) w = .ok (w, .notFound))

theorem handler_code (f : Fn) (st : Plugins.St) (vals : List Value) : (Plugins.app pf b).handler f.code st vals = Plugins.call pf b st f vals := by cases f <;> rfl

theorem serves_variadic {s : Desk} {c : Cmd} {f : Fn} {ps : List Param} {does : List Str → Reply → Prop} (hc : c.fn = f.code) (hk : c.kind = .variadic ps) (hd : ∀ w : PWorld, At s w → w.dis c.id = false)
    (hlen : ∀ rest r, does rest r → rest.length = ps.length)
    (h : ∀ rest (w : PWorld), At s w → Fine pf rest → rest.length = ps.length →
      (∃ vals r, convert pf ps rest = .ok vals ∧ does rest r ∧ ∀ ev, Step s r w ((w.effect (Plugins.call pf b w.app f vals)).note ev)) ∨
      (convert pf ps rest = .error .bad ∧ ∀ r, ¬ does rest r)) :
    Serves pf b s c (c.name, does) := by
  intro t rest w hw hf
  by_cases ht : t = c.name
  · subst ht
    by_cases hl : rest.length = ps.length
    · rcases h rest w hw hf hl with ⟨vals, r, h1, h2, h3⟩ | ⟨h1, h2⟩
      · refine .inl ⟨r, _, rfl, h2, ?_, h3 (.ran c vals w.snap none)⟩
        have := Plugged.execCmd_hit (A := Plugins.app pf b) (hd w hw) rfl hk hl h1 (by rw [hc, handler_code]; exact Plugged.call_exn _ _ _ _ _)
        rw [this, hc, handler_code]
      · refine .inr ⟨fun r _ => h2 r, ?_⟩
        unfold execCmd
        rw [if_neg (by rw [hd w hw]; simp), hk]
        dsimp only
        rw [if_neg (by simp [hl]), if_pos rfl]
        have hp : (Plugins.app pf b).plat = pf := rfl
        simp only [hp, h1]
    · refine .inr ⟨fun r _ hr => hl (hlen rest r hr), ?_⟩
      unfold execCmd
      rw [if_neg (by rw [hd w hw]; simp), hk]
      dsimp only
      rw [if_pos (by simpa using hl)]
  · exact .inr ⟨fun r hh => absurd hh ht, Plugged.execCmd_miss (fun hh => ht hh.symm)⟩

theorem int_conv {a : Str} (hf : Fine pf [a]) : (∃ i, IsInt a i ∧ FromString.fromString pf (.signed .w32) a = .ok (.int i)) ∨ ((∀ i, ¬ IsInt a i) ∧ FromString.fromString pf (.signed .w32) a = .error .bad) := by
  obtain ⟨f1, f2⟩ := hf a (by simp)
  by_cases hs : ∃ i : Int, IsInt a i
  · obtain ⟨i, h1, h2, h3⟩ := hs
    have hr : Plugged.Reads pf a i := ⟨h1, h2, h3, f2⟩
    exact .inl ⟨i, ⟨h1, h2, h3⟩, hr.converts⟩
  · refine .inr ⟨fun i hi => hs ⟨i, hi⟩, ?_⟩
    rcases C05_signed_rejects_partial pf .w32 a (f2.imp id .inr) (by
      rintro ⟨i, h1, h2, h3⟩
      refine hs ⟨i, h1, ?_, ?_⟩
      · simp only [FromString.Width.card] at h2; omega
      · simp only [FromString.Width.card] at h3; omega) with h | ⟨_, c, hc, h⟩
    · exact h
    · rw [f1 c hc] at h; cases h

theorem serves_plain {s : Desk} (id : Nat) (nm d : Str) (f : Fn) (r : Reply) (hd : ∀ w : PWorld, At s w → w.dis id = false)
    (h : ∀ (w : PWorld) ev, At s w → Step s r w ((w.effect (Plugins.call pf b w.app f [])).note ev)) : Serves pf b s (Plugins.cmd id nm [] (.variadic []) f d) (nm, plain r) :=
  serves_variadic (f := f) (ps := []) rfl rfl hd (fun _ _ h => by rw [h.1]; rfl) (fun rest w hw _ hl => by
    obtain rfl : rest = [] := List.length_eq_zero_iff.1 hl
    exact .inl ⟨[], r, rfl, ⟨rfl, rfl⟩, fun ev => h w ev hw⟩)

theorem serves_one {s : Desk} (id : Nat) (nm d : Str) (pd : List Str) (f : Fn) (row : Str → Reply → Prop) (hd : ∀ w : PWorld, At s w → w.dis id = false)
    (h : ∀ (w : PWorld) a, At s w → Fine pf [a] → ∃ r, row a r ∧ ∀ ev, Step s r w ((w.effect (Plugins.call pf b w.app f [.str a])).note ev)) :
    Serves pf b s (Plugins.cmd id nm pd (.variadic [str]) f d) (nm, fun args x => ∃ a, args = [a] ∧ row a x) :=
  serves_variadic (f := f) (ps := [str]) rfl rfl hd (fun _ _ ⟨_, h, _⟩ => by rw [h]; rfl) (fun rest w hw hf hl => by
    match rest, hl, hf with
    | [a], _, hf =>
      obtain ⟨r, h1, h2⟩ := h w a hw hf
      exact .inl ⟨[.str a], r, rfl, ⟨a, rfl, h1⟩, h2⟩)

theorem calculates_step {s : Desk} {w : PWorld} (hw : At s w) (rs : List Int) (text : Str) : ∃ r : Reply, (((∀ x ∈ rs, Small x) ∧ r = .says text) ∨ (¬ (∀ x ∈ rs, Small x) ∧ r = .undefined)) ∧
    ∀ ev, Step s r w ((w.effect (calculates w.app rs text)).note ev) := by
  unfold calculates
  by_cases h : rs.all fits = true
  · rw [if_pos h]
    refine ⟨_, .inl ⟨fun x hx => (Plugged.fits_iff x).1 (List.all_eq_true.1 h x hx), rfl⟩, fun ev => step_writes hw _ ev⟩
  · rw [if_neg h]
    refine ⟨_, .inr ⟨fun hh => h (List.all_eq_true.2 fun x hx => (Plugged.fits_iff x).2 (hh x hx)), rfl⟩, fun ev => step_undefined ev⟩

theorem serves_calc2 {s : Desk} (id : Nat) (nm d sign : Str) (pd : List Str) (f : Fn) (op : Int → Int → Int) (hd : ∀ w : PWorld, At s w → w.dis id = false)
    (h : ∀ st i j, Plugins.call pf b st f [.int i, .int j] = calculates st [op i j] (number i ++ sign ++ number j ++ bs!" = " ++ number (op i j) ++ bs!"\n")) :
    Serves pf b s (Plugins.cmd id nm pd (.variadic [int, int]) f d) (nm, calc2 op sign) :=
  serves_variadic (f := f) (ps := [int, int]) rfl rfl hd (fun _ _ ⟨_, _, _, _, h, _⟩ => by rw [h]; rfl) (fun rest w hw hf hl => by
    match rest, hl, hf with
    | [a, c], _, hf =>
      rcases int_conv (Showcase.fine_head hf) with ⟨i, h1, h2⟩ | ⟨h1, h2⟩
      · rcases int_conv (Showcase.fine_head (fine_tail _ hf)) with ⟨j, g1, g2⟩ | ⟨g1, g2⟩
        · obtain ⟨r, c1, c3⟩ := calculates_step hw [op i j] (number i ++ sign ++ number j ++ bs!" = " ++ number (op i j) ++ bs!"\n")
          refine .inl ⟨[.int i, .int j], r, by simp only [convert, int, h2, g2]; rfl, ⟨a, c, i, j, rfl, h1, g1, ?_⟩, by rw [h]; exact c3⟩
          rcases c1 with ⟨c1, rfl⟩ | ⟨c1, rfl⟩
          · exact .inl ⟨c1 _ (by simp), _, _, _, Plugged.number_shows i, Plugged.number_shows j, Plugged.number_shows _, rfl⟩
          · exact .inr ⟨fun h => c1 (by simpa using h), rfl⟩
        · refine .inr ⟨by simp only [convert, int, h2, g2]; rfl, ?_⟩
          rintro r ⟨a', b', i', j', e, hi, hj, _⟩
          cases e; exact g1 _ hj
      · refine .inr ⟨by simp only [convert, int, h2]; rfl, ?_⟩
        rintro r ⟨a', b', i', j', e, hi, hj, _⟩
        cases e; exact h1 _ hi)

theorem serves_add3 {s : Desk} (id : Nat) (hd : ∀ w : PWorld, At s w → w.dis id = false) (d : Str) (pd : List Str) : Serves pf b s (Plugins.cmd id bs!"add" pd (.variadic [int, int, int]) .add3 d) (bs!"add", sum3) :=
  serves_variadic (f := .add3) (ps := [int, int, int]) rfl rfl hd (fun _ _ ⟨_, _, _, _, _, _, h, _⟩ => by rw [h]; rfl) (fun rest w hw hf hl => by
    match rest, hl, hf with
    | [a, b, c], _, hf =>
      rcases int_conv (Showcase.fine_head hf) with ⟨i, h1, h2⟩ | ⟨h1, h2⟩
      · rcases int_conv (Showcase.fine_head (fine_tail _ hf)) with ⟨j, g1, g2⟩ | ⟨g1, g2⟩
        · rcases int_conv (Showcase.fine_head (fine_tail _ (fine_tail _ hf))) with ⟨k, e1, e2⟩ | ⟨e1, e2⟩
          · obtain ⟨r, c1, c3⟩ := calculates_step hw [i + j, i + j + k] (number i ++ bs!" + " ++ number j ++ bs!" + " ++ number k ++ bs!" = " ++ number (i + j + k) ++ bs!"\n")
            refine .inl ⟨[.int i, .int j, .int k], r, by simp only [convert, int, h2, g2, e2]; rfl, ⟨a, b, c, i, j, k, rfl, h1, g1, e1, ?_⟩, c3⟩
            rcases c1 with ⟨c1, rfl⟩ | ⟨c1, rfl⟩
            · exact .inl ⟨c1 _ (by simp), c1 _ (by simp), _, _, _, _, Plugged.number_shows i, Plugged.number_shows j, Plugged.number_shows k, Plugged.number_shows _, rfl⟩
            · exact .inr ⟨fun h => c1 (by simpa using h), rfl⟩
          · refine .inr ⟨by simp only [convert, int, h2, g2, e2]; rfl, ?_⟩
            rintro r ⟨a', b', c', i', j', k', e, hi, hj, hk, _⟩
            cases e; exact e1 _ hk
        · refine .inr ⟨by simp only [convert, int, h2, g2]; rfl, ?_⟩
          rintro r ⟨a', b', c', i', j', k', e, hi, hj, hk, _⟩
          cases e; exact g1 _ hj
      · refine .inr ⟨by simp only [convert, int, h2]; rfl, ?_⟩
        rintro r ⟨a', b', c', i', j', k', e, hi, hj, hk, _⟩
        cases e; exact h1 _ hi)

theorem serves_sort {s : Desk} (id : Nat) (hd : ∀ w : PWorld, At s w → w.dis id = false) (d : Str) (pd : List Str) : Serves pf b s (Plugins.cmd id bs!"sort" pd .freeform .sort d) (bs!"sort", sort) := by
  intro t rest w hw hf
  by_cases ht : t = bs!"sort"
  · subst ht
    have e : Plugins.call pf b w.app .sort (rest.map Value.str) = writes w.app (bs!"sorted list: " ++ (sorted rest).flatMap (· ++ bs!" ") ++ bs!"\n") := by
      show writes _ (bs!"sorted list: " ++ (sorted (List.filterMap _ (rest.map Value.str))).flatMap _ ++ _) = _
      rw [Plugged.only_strings _ (fun _ => rfl)]
    refine .inl ⟨.says (bs!"sorted list: " ++ (sorted rest).flatMap (· ++ bs!" ") ++ bs!"\n"), _, rfl,
      ⟨sorted rest, List.mergeSort_perm _ _, (List.pairwise_mergeSort Plugged.before_trans Plugged.before_total rest).imp (fun h => (Plugged.before_iff _ _).1 h), rfl⟩, ?_, step_writes hw _ (.ran (Plugins.cmd id bs!"sort" pd .freeform .sort d) (rest.map Value.str) w.snap none)⟩
    unfold execCmd
    rw [if_neg (by rw [show (Plugins.cmd id bs!"sort" pd .freeform .sort d).id = id from rfl, hd w hw]; simp)]
    rw [show (Plugins.cmd id bs!"sort" pd .freeform .sort d).kind = .freeform from rfl]
    dsimp only
    rw [if_pos (show (Plugins.cmd id bs!"sort" pd .freeform .sort d).name = bs!"sort" from rfl)]
    unfold callHandler
    rw [show (Plugins.cmd id bs!"sort" pd .freeform .sort d).fn = Fn.sort.code from rfl, handler_code, e]
    rfl
  · exact .inr ⟨fun r hh => absurd hh ht, Plugged.execCmd_miss (fun hh => ht hh.symm)⟩

/-- A command that is disabled, when the table does not have it. -/
theorem serves_disabled {s : Desk} {c : Cmd} {row : Str × (List Str → Reply → Prop)} (hd : ∀ w : PWorld, At s w → w.dis c.id = true) (hr : ∀ args r, ¬ row.2 args r) : Serves pf b s c row := by
  intro t rest w hw _
  unfold execCmd
  rw [if_pos (hd w hw)]
  exact .inr ⟨fun r _ => hr rest r, rfl⟩

theorem serves_iff {s : Desk} {c : Cmd} {nm : Str} {d1 d2 : List Str → Reply → Prop} (h : Serves pf b s c (nm, d1)) (hd : ∀ a r, d1 a r ↔ d2 a r) : Serves pf b s c (nm, d2) := by
  intro t rest w hw hf
  rcases h t rest w hw hf with ⟨r, w', a, b, c⟩ | ⟨a, b⟩
  · exact .inl ⟨r, w', a, (hd _ _).1 b, c⟩
  · exact .inr ⟨fun r e hr => a r e ((hd _ _).2 hr), b⟩

/-! ### The menus -/

/-- The commands of a menu, whose identity is `i`. -/
def cmdsOf (i : Nat) : Place → List Cmd
  | .root =>
    [Plugins.cmd 1 bs!"list" [] (.variadic []) .list bs!"Print the plugin list", Plugins.cmd 2 bs!"loaded" [] (.variadic []) .loaded bs!"Load the plugin specified",
     Plugins.cmd 3 bs!"load" [bs!"plugin_name"] (.variadic [str]) .load bs!"Load the plugin specified", Plugins.cmd 4 bs!"unload" [bs!"plugin_name"] (.variadic [str]) .unload bs!"Unload the plugin specified",
     Plugins.cmd 5 bs!"color" [] (.variadic []) .color bs!"Enable colors in the cli", Plugins.cmd 6 bs!"nocolor" [] (.variadic []) .nocolor bs!"Disable colors in the cli"]
  | .plug .arithmetic =>
    [Plugins.cmd (i + 1) bs!"add" [bs!"first_term", bs!"second_term"] (.variadic [int, int]) .add2 bs!"Print the sum of the two numbers",
     Plugins.cmd (i + 2) bs!"add" [] (.variadic [int, int, int]) .add3 bs!"Print the sum of the three numbers",
     Plugins.cmd (i + 3) bs!"sub" [bs!"subtrahend", bs!"minuend"] (.variadic [int, int]) .sub bs!"Print the result of a subtraction"]
  | .plug .strings =>
    [Plugins.cmd (i + 1) bs!"reverse" [bs!"string_to_revert"] (.variadic [str]) .reverse bs!"Print the reverse string",
     Plugins.cmd (i + 2) bs!"upper" [] (.variadic [str]) .upper bs!"Print the string in uppercase",
     Plugins.cmd (i + 3) bs!"sort" [bs!"list of strings separated by space"] .freeform .sort bs!"Alphabetically sort a list of words"]

/-- … with their rows in the table. -/
def pairs (b : Bool) (s : Desk) (i : Nat) (pl : Place) : List (Cmd × (Str × (List Str → Reply → Prop))) := (cmdsOf i pl).zip (rows b s pl)

def chain (l : List (Cmd × (Str × (List Str → Reply → Prop)))) (tail : Forest) : Forest := l.foldr (fun x f => .cmd x.1 f) tail

theorem root_chain (s : Desk) (i : Nat) (f : Forest) : rootKids f = chain (pairs b s i .root) f := rfl
theorem plug_chain (s : Desk) (i : Nat) (p : Plug) : p.kids i = chain (pairs b s i (.plug p)) .nil := by cases p <;> rfl
theorem pairs_rows (s : Desk) (i : Nat) (pl : Place) : (pairs b s i pl).map (·.2) = rows b s pl := by
  cases pl with
  | root => rfl
  | plug p => cases p <;> rfl

theorem capital_upper (a : Str) : a.map capital = a.map Plugins.toUpper := List.map_congr_left (fun c _ => by
  unfold capital Plugins.toUpper
  have : (b%'a' ≤ c ∧ c ≤ b%'z') ↔ (97 ≤ c.toNat ∧ c.toNat ≤ 122) := by rw [UInt8.le_iff_toNat_le, UInt8.le_iff_toNat_le]; rfl
  simp only [this]; rfl)

theorem listed_listing (ps : List Plug) : listed ps = Plugins.listing ps := by
  unfold listed Plugins.listing
  congr 1
  funext p
  rw [called_name]

theorem pairs_serve (s : Desk) (i : Nat) (pl : Place) (hi : pl = .root ∨ 7 ≤ i) : ∀ x ∈ pairs b s i pl, Serves pf b s x.1 x.2 := by
  have o : ∀ i : Nat, i ≠ 5 → i ≠ 6 → ∀ w : PWorld, At s w → w.dis i = false := fun i h1 h2 w h => h.good.others i h1 h2
  cases pl with
  | root =>
    intro x hx
    simp only [pairs, cmdsOf, rows, List.zip_cons_cons, List.zip_nil_left, List.mem_cons, List.not_mem_nil, or_false] at hx
    rcases hx with h | h | h | h | h | h
    · rw [h]; exact serves_plain 1 _ _ .list _ (o 1 (by decide) (by decide)) (fun w ev hw => by
        have := step_writes hw (Plugins.listing (registry b)) ev
        cases b <;> exact this)
    · rw [h]; exact serves_plain 2 _ _ .loaded _ (o 2 (by decide) (by decide)) (fun w ev hw => by
        rw [listed_listing, ← hw.loaded]; exact step_writes hw _ ev)
    · rw [h]
      refine serves_one 3 _ _ _ .load (fun a x => (∃ p, a = called p ∧ x = .loads p) ∨ ((∀ p, a ≠ called p) ∧ x = .says [])) (o 3 (by decide) (by decide)) (fun w a hw _ => ?_)
      by_cases hp : ∃ p, a = called p
      · obtain ⟨p, rfl⟩ := hp
        exact ⟨_, .inl ⟨p, rfl, rfl⟩, fun ev => by rw [called_name]; exact step_load hw b p ev⟩
      · have hp : ∀ p, a ≠ called p := fun p hh => hp ⟨p, hh⟩
        refine ⟨_, .inr ⟨hp, rfl⟩, fun ev => ?_⟩
        have hld : Plugins.call pf b w.app .load [.str a] = ⟨w.app, [], none⟩ := by
          show Plugins.load b w.app a = _
          unfold Plugins.load
          rw [List.find?_eq_none.2 (fun p _ => by have := hp p; rw [called_name] at this; simpa using this.symm)]
        rw [hld]
        exact step_nothing hw ev
    · rw [h]
      exact serves_one 4 _ _ _ .unload (fun a x => x = .unloads a) (o 4 (by decide) (by decide)) (fun w a hw _ => ⟨_, rfl, fun ev => step_unload hw a ev⟩)
    · rw [h]
      by_cases hc : s.choice = some true
      · exact serves_disabled (fun w hw => by show w.dis 5 = true; rw [hw.offers.1, hc]; rfl) (fun args r hh => hh.1 hc)
      · refine serves_iff (d1 := plain (.chooses true)) (serves_plain 5 _ _ .color _ (fun w hw => by rw [hw.offers.1]; simpa using hc) (fun w ev hw => step_color hw true ev)) (fun a r => by simp [hc])
    · rw [h]
      by_cases hc : s.choice = some false
      · exact serves_disabled (fun w hw => by show w.dis 6 = true; rw [hw.offers.2, hc]; rfl) (fun args r hh => hh.1 hc)
      · refine serves_iff (d1 := plain (.chooses false)) (serves_plain 6 _ _ .nocolor _ (fun w hw => by rw [hw.offers.2]; simpa using hc) (fun w ev hw => step_color hw false ev)) (fun a r => by simp [hc])
  | plug p =>
    have hi : 7 ≤ i := hi.resolve_left (fun h => by cases h)
    have o : ∀ k : Nat, ∀ w : PWorld, At s w → w.dis (i + k : Nat) = false := fun k => o (i + k) (by omega) (by omega)
    intro x hx
    cases p
    · simp only [pairs, cmdsOf, rows, List.zip_cons_cons, List.zip_nil_left, List.mem_cons, List.not_mem_nil, or_false] at hx
      rcases hx with h | h | h
      · rw [h]; exact serves_calc2 (i + 1) _ _ _ _ .add2 (· + ·) (o 1) (fun _ _ _ => rfl)
      · rw [h]; exact serves_add3 (i + 2) (o 2) _ _
      · rw [h]; exact serves_calc2 (i + 3) _ _ _ _ .sub (· - ·) (o 3) (fun _ _ _ => rfl)
    · simp only [pairs, cmdsOf, rows, List.zip_cons_cons, List.zip_nil_left, List.mem_cons, List.not_mem_nil, or_false] at hx
      rcases hx with h | h | h
      · rw [h]; exact serves_one (i + 1) _ _ _ .reverse (fun a x => x = .says (a.reverse ++ bs!"\n")) (o 1) (fun w a hw _ => ⟨_, rfl, fun ev => step_writes hw _ ev⟩)
      · rw [h]
        refine serves_one (i + 2) _ _ _ .upper (fun a x => x = .says (a.map capital ++ bs!"\n")) (o 2) (fun w a hw hf => ⟨_, rfl, fun ev => ?_⟩)
        have hu : a.any pf.ctypeUB = false := by rw [List.any_eq_false]; intro c hc; simp [(hf a (by simp)).1 c hc]
        have : Plugins.call pf b w.app .upper [.str a] = writes w.app (a.map Plugins.toUpper ++ bs!"\n") := by
          show (if a.any pf.ctypeUB then _ else _) = _; rw [if_neg (by simp [hu])]
        rw [this, capital_upper]
        exact step_writes hw _ ev
      · rw [h]; exact serves_sort (i + 3) (o 3) _ _

theorem goOn_found {w w' : PWorld} {next : PWorld → WRes} : goOn w (.ok (w', .found)) next = .ok (w', .found) := rfl
theorem goOn_next {w : PWorld} {next : PWorld → WRes} : goOn w (.ok (w, .notFound)) next = next w := by simp [goOn]

/-- The commands of a menu, in order. -/
theorem scan_rows {s : Desk} {t : Str} {rest : List Str} (hf : Fine pf rest) (sub : MenuInfo → Forest → PWorld → WRes) (tail : Forest) {w : PWorld} (hw : At s w) :
    ∀ (l : List (Cmd × (Str × (List Str → Reply → Prop)))), (∀ x ∈ l, Serves pf b s x.1 x.2) →
    (∃ row ∈ l.map (·.2), ∃ r w', t = row.1 ∧ row.2 rest r ∧ scanEntries (Plugins.app pf b) (t :: rest) sub (chain l tail) w = .ok (w', .found) ∧ Step s r w w') ∨
    ((∀ row ∈ l.map (·.2), ∀ r, t = row.1 → ¬ row.2 rest r) ∧ scanEntries (Plugins.app pf b) (t :: rest) sub (chain l tail) w = scanEntries (Plugins.app pf b) (t :: rest) sub tail w)
  | [], _ => .inr ⟨by simp, rfl⟩
  | x :: l, hl => by
    unfold chain
    rcases hl x (by simp) t rest w hw hf with ⟨r, w', h1, h2, h3, h4⟩ | ⟨h1, h2⟩
    · refine .inl ⟨x.2, by simp, r, w', h1, h2, ?_, h4⟩
      rw [List.foldr_cons, scanEntries, h3, goOn_found]
    · rcases scan_rows hf sub tail hw l (fun y hy => hl y (by simp [hy])) with ⟨row, m, r, w', g1, g2, g3, g4⟩ | ⟨g1, g2⟩
      · unfold chain at g3
        refine .inl ⟨row, by simpa using .inr (by simpa using m), r, w', g1, g2, ?_, g4⟩
        rw [List.foldr_cons, scanEntries, h2, goOn_next, g3]
      · unfold chain at g2
        refine .inr ⟨?_, ?_⟩
        · intro row hr r
          rcases List.mem_cons.1 hr with rfl | hr
          · exact h1 r
          · exact g1 row hr r
        · rw [List.foldr_cons, scanEntries, h2, goOn_next, g2]

theorem does_nil {s : Desk} {pl : Place} {r : Reply} : ¬ Does b s pl [] r := by
  intro h
  generalize hk : ([] : List Str) = toks at h
  cases h <;> cases hk

theorem does_cons {s : Desk} {pl : Place} {t : Str} {rest : List Str} {r : Reply} : Does b s pl (t :: rest) r ↔
    (∃ row ∈ rows b s pl, t = row.1 ∧ row.2 rest r) ∨ (∃ q, Above s pl q ∧ t = q.name ∧ ((rest = [] ∧ r = .goes q) ∨ Does b s q rest r)) ∨
    (∃ a, Above s a pl ∧ (t = a.name ∨ t = bs!"..") ∧ ((rest = [] ∧ r = .goes a) ∨ Does b s a rest r)) := by
  constructor
  · intro h
    generalize hk : t :: rest = toks at h
    cases h with
    | here h1 h2 => cases hk; exact .inl ⟨_, h1, rfl, h2⟩
    | down h1 => cases hk; exact .inr (.inl ⟨_, h1, rfl, .inl ⟨rfl, rfl⟩⟩)
    | inside h1 h2 => cases hk; exact .inr (.inl ⟨_, h1, rfl, .inr h2⟩)
    | up h1 h2 => cases hk; exact .inr (.inr ⟨_, h1, h2, .inl ⟨rfl, rfl⟩⟩)
    | outside h1 h2 h3 => cases hk; exact .inr (.inr ⟨_, h1, h2, .inr h3⟩)
  · rintro (⟨⟨_, _⟩, h1, rfl, h2⟩ | ⟨b, h1, rfl, ⟨rfl, rfl⟩ | h2⟩ | ⟨a, h1, h2, ⟨rfl, rfl⟩ | h3⟩)
    · exact .here h1 h2
    · exact .down h1
    · exact .inside h1 h2
    · exact .up h1 h2
    · exact .outside h1 h2 h3

/-! ### The search -/

def rootPath (l : List Item) : Path := [(rootInfo, rootKids (kidsOf l))]
def itemPath (e : Item) (l : List Item) : Path := (e.plug.info e.menu, e.plug.kids e.menu) :: rootPath l

/-- A menu with those above it. -/
inductive Here (w : PWorld) : Place → Nat → Path → Prop
  | root : Here w .root 0 (rootPath w.app.loaded)
  | plug {e} : e ∈ w.app.loaded → Here w (.plug e.plug) e.menu (itemPath e w.app.loaded)

/-- In the menu, then in those above. -/
def go (A : App Plugins.St Storage.Volatile) (toks : List Str) (w : PWorld) : Path → WRes
  | [] => .ok (w, .notFound)
  | (m, k) :: anc => goOn w (scanEntries A toks (fun m' k' w => handleCommand A toks false ((m', k') :: (m, k) :: anc) w) k w) (fun w => handleCommand A toks true anc w)

/-- The result agrees with the table. -/
def Agrees (b : Bool) (s : Desk) (pl : Place) (toks : List Str) (w : PWorld) (x : WRes) : Prop :=
  (∃ r w', Does b s pl toks r ∧ x = .ok (w', .found) ∧ Step s r w w') ∨ ((∀ r, ¬ Does b s pl toks r) ∧ x = .ok (w, .notFound))

/-- A menu, entered by its name, in terms of the search in it. -/
theorem handle_agrees {A : App Plugins.St Storage.Volatile} {s : Desk} {t : Str} {rest : List Str} {v : Bool} {pl : Place} {i : Nat} {P : Path} {w : PWorld} (hw : At s w) (hh : Here w pl i P) (ih : rest ≠ [] → Agrees b s pl rest w (go A rest w P)) :
    (((t = pl.name ∨ (v = true ∧ t = bs!"..")) ∧ ((∃ r w', ((rest = [] ∧ r = .goes pl) ∨ Does b s pl rest r) ∧ handleCommand A (t :: rest) v P w = .ok (w', .found) ∧ Step s r w w') ∨
      ((∀ r, ¬ ((rest = [] ∧ r = .goes pl) ∨ Does b s pl rest r)) ∧ handleCommand A (t :: rest) v P w = .ok (w, .notFound)))) ∨
    (¬ (t = pl.name ∨ (v = true ∧ t = bs!"..")) ∧ handleCommand A (t :: rest) v P w = .ok (w, .notFound))) := by
  have hp : ∃ anc m k, P = (m, k) :: anc ∧ m.name = pl.name ∧ w.dis m.id = false ∧ Step s (.goes pl) w { w with current := m.id } := by
    cases hh with
    | root => exact ⟨_, _, _, rfl, rfl, hw.good.others 0 (by decide) (by decide), step_root hw⟩
    | plug he => exact ⟨_, _, _, rfl, (called_name _).symm, hw.good.on he, step_plug hw he⟩
  obtain ⟨anc, m, k, e1, e2, hd, hst⟩ := hp
  subst e1
  have he : handleCommand A (t :: rest) v ((m, k) :: anc) w =
      if t = m.name ∨ (v = true ∧ t = bs!"..") then
        if rest = [] then .ok ({ w with current := m.id }, .found) else go A rest w ((m, k) :: anc)
      else .ok (w, .notFound) := by
    rw [handleCommand, if_neg (by simp [hd])]; rfl
  rw [he, e2]
  by_cases ht : t = pl.name ∨ (v = true ∧ t = bs!"..")
  · rw [if_pos ht]
    refine .inl ⟨ht, ?_⟩
    by_cases hr : rest = []
    · rw [if_pos hr]
      exact .inl ⟨_, _, .inl ⟨hr, rfl⟩, rfl, hst⟩
    · rw [if_neg hr]
      rcases ih hr with ⟨r, w', g1, g2, g3⟩ | ⟨g1, g2⟩
      · exact .inl ⟨r, w', .inr g1, g2, g3⟩
      · refine .inr ⟨?_, g2⟩
        rintro r (⟨h, _⟩ | h)
        · exact hr h
        · exact g1 r h
  · rw [if_neg ht]
    exact .inr ⟨ht, rfl⟩

/-- The menus of the plugins, one after the other. -/
theorem lower {s : Desk} {t : Str} {rest : List Str} {w : PWorld} (hw : At s w) (A : App Plugins.St Storage.Volatile) (ih : ∀ e ∈ w.app.loaded, rest ≠ [] → Agrees b s (.plug e.plug) rest w (go A rest w (itemPath e w.app.loaded))) (l : List Item) :
    (∀ e ∈ l, e ∈ w.app.loaded) →
    (∃ r w', (∃ e ∈ l, t = called e.plug ∧ ((rest = [] ∧ r = .goes (.plug e.plug)) ∨ Does b s (.plug e.plug) rest r)) ∧
      scanEntries A (t :: rest) (fun m' k' w' => handleCommand A (t :: rest) false ((m', k') :: rootPath w.app.loaded) w') (kidsOf l) w = .ok (w', .found) ∧ Step s r w w') ∨
    ((∀ e ∈ l, t = called e.plug → ∀ r, ¬ ((rest = [] ∧ r = .goes (.plug e.plug)) ∨ Does b s (.plug e.plug) rest r)) ∧
      scanEntries A (t :: rest) (fun m' k' w' => handleCommand A (t :: rest) false ((m', k') :: rootPath w.app.loaded) w') (kidsOf l) w = .ok (w, .notFound)) := by
  induction l with
  | nil => intro _; exact .inr ⟨by simp, rfl⟩
  | cons e l il =>
    intro hl
    have he := hl e (by simp)
    have hh := handle_agrees (A := A) (t := t) (rest := rest) (v := false) hw (.plug he) (ih e he)
    rw [kidsOf_cons, Item.forest, scanEntries]
    have hp : itemPath e w.app.loaded = (e.plug.info e.menu, e.plug.kids e.menu) :: rootPath w.app.loaded := rfl
    rw [hp] at hh
    rcases hh with ⟨ht, ⟨r, w', g1, g2, g3⟩ | ⟨g1, g2⟩⟩ | ⟨ht, g2⟩
    · rw [g2, goOn_found]
      exact .inl ⟨r, w', ⟨e, by simp, ht.elim id (fun h => by cases h.1), g1⟩, rfl, g3⟩
    · rw [g2, goOn_next]
      rcases il (fun x hx => hl x (by simp [hx])) with ⟨r, w', ⟨x, hx, hy⟩, k2⟩ | ⟨k1, k2⟩
      · exact .inl ⟨r, w', ⟨x, by simp [hx], hy⟩, k2⟩
      · refine .inr ⟨?_, k2⟩
        intro x hx
        rcases List.mem_cons.1 hx with rfl | hx
        · exact fun _ => g1
        · exact k1 x hx
    · rw [g2, goOn_next]
      rcases il (fun x hx => hl x (by simp [hx])) with ⟨r, w', ⟨x, hx, hy⟩, k2⟩ | ⟨k1, k2⟩
      · exact .inl ⟨r, w', ⟨x, by simp [hx], hy⟩, k2⟩
      · refine .inr ⟨?_, k2⟩
        intro x hx
        rcases List.mem_cons.1 hx with rfl | hx
        · exact fun h => absurd (.inl h) ht
        · exact k1 x hx

theorem above_root {s : Desk} {a : Place} : ¬ Above s a .root := by rintro ⟨_, _, _, h⟩; cases h

/-- **The search agrees with the table.** -/
theorem go_agrees {s : Desk} (n : Nat) : ∀ (toks : List Str), toks.length ≤ n → toks ≠ [] → Fine pf toks → ∀ (pl : Place) (i : Nat) (P : Path) (w : PWorld), At s w → Here w pl i P →
    Agrees b s pl toks w (go (Plugins.app pf b) toks w P) := by
  induction n with
  | zero => intro toks h1 h2; exact absurd (List.length_eq_zero_iff.1 (by omega)) h2
  | succ n ih =>
    intro toks hn hne hf pl i P w hw hh
    match toks, hn, hne, hf with
    | t :: rest, hn, _, hf =>
    have hn : rest.length ≤ n := by simpa using hn
    have ihr : ∀ q j Q, Here w q j Q → rest ≠ [] → Agrees b s q rest w (go (Plugins.app pf b) rest w Q) := fun q j Q hq h => ih rest hn h (fine_tail _ hf) q j Q w hw hq
    have hmem : ∀ p, (∃ e ∈ w.app.loaded, e.plug = p) ↔ p ∈ s.loaded := by intro p; rw [← hw.loaded]; simp
    cases hh with
    | root =>
      simp only [go, rootPath]
      rw [root_chain (b := b) s 0]
      rcases scan_rows (b := b) (s := s) (t := t) (rest := rest) (fine_tail _ hf) (fun m' k' w' => handleCommand (Plugins.app pf b) (t :: rest) false ((m', k') :: rootPath w.app.loaded) w') (kidsOf w.app.loaded) hw (pairs b s 0 .root) (pairs_serve s 0 .root (.inl rfl))
        with ⟨row, hm, r, w', h1, h2, h3, h4⟩ | ⟨h1, h2⟩
      · have h3 := h3
        simp only [rootPath] at h3
        rw [root_chain (b := b) s 0] at h3
        rw [h3, goOn_found]
        rw [pairs_rows] at hm
        exact .inl ⟨r, w', does_cons.2 (.inl ⟨row, hm, h1, h2⟩), rfl, h4⟩
      rw [pairs_rows] at h1
      have hrow : ∀ r, ¬ ∃ row ∈ rows b s .root, t = row.1 ∧ row.2 rest r := fun r ⟨row, a, b, c⟩ => h1 row a r b c
      rcases lower (b := b) (t := t) (rest := rest) hw (Plugins.app pf b) (fun e he => ihr _ _ _ (.plug he)) w.app.loaded (fun _ h => h) with ⟨r, w', ⟨e, he, ht, hx⟩, k2, k3⟩ | ⟨k1, k2⟩
      · rw [k2] at h2
        simp only [rootPath] at h2
        rw [root_chain (b := b) s 0] at h2
        rw [h2, goOn_found]
        exact .inl ⟨r, w', does_cons.2 (.inr (.inl ⟨.plug e.plug, ⟨rfl, e.plug, (hmem _).1 ⟨e, he, rfl⟩, rfl⟩, ht, hx⟩)), rfl, k3⟩
      · rw [k2] at h2
        simp only [rootPath] at h2
        rw [root_chain (b := b) s 0] at h2
        rw [h2, goOn_next]
        refine .inr ⟨fun r h => ?_, by simp [handleCommand]⟩
        rcases does_cons.1 h with h | ⟨q, ⟨_, p, hp, rfl⟩, ht, hx⟩ | ⟨a, ha, _⟩
        · exact hrow r h
        · obtain ⟨e, he, rfl⟩ := (hmem p).2 hp
          exact k1 e he ht r hx
        · exact above_root ha
    | @plug e he =>
      have h7 := (hw.good.above e he).1
      simp only [go, itemPath]
      rcases scan_rows (b := b) (s := s) (t := t) (rest := rest) (fine_tail _ hf) (fun m' k' w' => handleCommand (Plugins.app pf b) (t :: rest) false ((m', k') :: itemPath e w.app.loaded) w') .nil hw (pairs b s e.menu (.plug e.plug)) (pairs_serve s e.menu (.plug e.plug) (.inr h7))
        with ⟨row, hm, r, w', h1, h2, h3, h4⟩ | ⟨h1, h2⟩
      · rw [← plug_chain] at h3
        simp only [itemPath] at h3
        rw [h3, goOn_found]
        rw [pairs_rows] at hm
        exact .inl ⟨r, w', does_cons.2 (.inl ⟨row, hm, h1, h2⟩), rfl, h4⟩
      rw [pairs_rows] at h1
      rw [← plug_chain] at h2
      simp only [itemPath] at h2
      have hrow : ∀ r, ¬ ∃ row ∈ rows b s (.plug e.plug), t = row.1 ∧ row.2 rest r := fun r ⟨row, a, b, c⟩ => h1 row a r b c
      have hbel : ∀ q, ¬ Above s (.plug e.plug) q := by rintro q ⟨h, _⟩; cases h
      rw [h2]
      simp only [scanEntries]
      rw [goOn_next]
      have hab : Above s .root (.plug e.plug) := ⟨rfl, e.plug, (hmem _).1 ⟨e, he, rfl⟩, rfl⟩
      rcases handle_agrees (A := Plugins.app pf b) (t := t) (rest := rest) (v := true) hw (.root (w := w)) (ihr _ _ _ .root) with ⟨ht, ⟨r, w', k1, k2, k3⟩ | ⟨k1, k2⟩⟩ | ⟨ht, k2⟩
      · rw [k2]
        exact .inl ⟨r, w', does_cons.2 (.inr (.inr ⟨.root, hab, by simpa using ht, k1⟩)), rfl, k3⟩
      · rw [k2]
        refine .inr ⟨fun r h => ?_, rfl⟩
        rcases does_cons.1 h with h | ⟨q, hq, _⟩ | ⟨a, ⟨rfl, _⟩, _, hx⟩
        · exact hrow r h
        · exact hbel q hq
        · exact k1 r hx
      · rw [k2]
        refine .inr ⟨fun r h => ?_, rfl⟩
        rcases does_cons.1 h with h | ⟨q, hq, _⟩ | ⟨a, ⟨rfl, _⟩, hx, _⟩
        · exact hrow r h
        · exact hbel q hq
        · exact ht (by simpa using hx)

theorem locate_place {s : Desk} {w : PWorld} (hw : At s w) : ∃ i P, w.tree.locate w.current = some P ∧ Here w s.place i P := by
  have hp := hw.place
  cases hs : s.place with
  | root =>
    rw [hs] at hp
    have hp : w.current = 0 := hp
    exact ⟨0, _, by rw [hp, hw.good.root]; rfl, .root⟩
  | plug p =>
    rw [hs] at hp
    obtain ⟨e, he, rfl, hc⟩ := hp
    exact ⟨e.menu, _, by rw [hc, hw.good.locate he]; rfl, .plug he⟩

/-- … from the current menu. -/
theorem scan_agrees {toks : List Str} (ht : toks ≠ []) (hf : Fine pf toks) {s : Desk} {w : PWorld} (hw : At s w) : Agrees b s s.place toks w (scanCurrent (Plugins.app pf b) toks w) := by
  obtain ⟨i, P, h1, h2⟩ := locate_place hw
  have : scanCurrent (Plugins.app pf b) toks w = go (Plugins.app pf b) toks w P := by
    unfold scanCurrent
    rw [h1]
    generalize s.place = pl at h2
    cases h2 with
    | root =>
      have e : w.dis rootInfo.id = false := hw.good.others 0 (by decide) (by decide)
      simp only [rootPath, scanCmds, go, e, Bool.false_eq_true, if_false, ht]
    | @plug e he =>
      have e : w.dis (e.plug.info e.menu).id = false := hw.good.on he
      simp only [itemPath, scanCmds, go, e, Bool.false_eq_true, if_false, ht]
  rw [this]
  exact go_agrees toks.length toks (Nat.le_refl _) ht hf s.place i P w hw h2

end

end Verif.Workbench
