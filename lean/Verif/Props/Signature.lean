import Verif.Spec.Signature
import Verif.Props.Tight
import Verif.Props.Observed
import Verif.Props.Life
import Verif.Props.Script

set_option linter.unusedSimpArgs false

/-!
# C109: the parameters of a function become the parameters of the command
-/

namespace Verif.Signature
open Spec Props
open FromString (Value fromString ConvErr)

/-! ### One parameter -/

theorem bits_unsigned {d : Data} {ty : Ty} {n : Nat} (h : Unsigned d ty n) : ∃ w, ty.param d = some (.unsigned w) ∧ bits w = n := by
  cases h with
  | ulong64 h => exact ⟨.w64, by simp [Ty.param, h], rfl⟩
  | ulong32 h => exact ⟨.w32, by simp [Ty.param, h], rfl⟩
  | _ => exact ⟨_, rfl, rfl⟩

theorem bits_signed {d : Data} {ty : Ty} {n : Nat} (h : Signed d ty n) : ∃ w, ty.param d = some (.signed w) ∧ bits w = n := by
  cases h with
  | long64 h => exact ⟨.w64, by simp [Ty.param, h], rfl⟩
  | long32 h => exact ⟨.w32, by simp [Ty.param, h], rfl⟩
  | _ => exact ⟨_, rfl, rfl⟩

/-- The types that are read as unsigned numbers. -/
theorem unsigned_bits {d : Data} {ty : Ty} {w : FromString.Width} (h : ty.param d = some (.unsigned w)) : Unsigned d ty (bits w) := by
  cases ty with
  | ulong =>
    cases hd : d.wideLong <;> simp [Ty.param, hd] at h <;> subst h
    · exact .ulong32 hd
    · exact .ulong64 hd
  | _ => simp [Ty.param] at h <;> subst h <;> constructor

theorem signed_bits {d : Data} {ty : Ty} {w : FromString.Width} (h : ty.param d = some (.signed w)) : Signed d ty (bits w) := by
  cases ty with
  | long =>
    cases hd : d.wideLong <;> simp [Ty.param, hd] at h <;> subst h
    · exact .long32 hd
    · exact .long64 hd
  | _ => simp [Ty.param] at h <;> subst h <;> constructor

theorem float_kind {d : Data} {ty : Ty} {k : Nat} (h : ty.param d = some (.float k)) : Floating ty k := by
  cases ty <;> simp [Ty.param] at h <;> subst h <;> constructor

theorem kind_float {d : Data} {ty : Ty} {k : Nat} (h : Floating ty k) : ty.param d = some (.float k) := by
  cases h <;> rfl

theorem half (n : Nat) : ((2 ^ n : Nat) : Int) = 2 ^ n := by simp

/-- What `Safe` says of the bytes. -/
theorem safe_bytes {p : Platform} {d : Data} {ty : Ty} {s : Str} (hs : Safe p ty s) {w : FromString.Width} {k : Nat}
    (h : ty.param d = some (.unsigned w) ∨ ty.param d = some (.signed w) ∨ ty.param d = some .bool ∨ ty.param d = some (.float k)) : ∀ c ∈ s, p.ctypeUB c = false := by
  cases ty <;> first | exact hs | exact hs.1 | simp [Ty.param] at h

theorem safe_minus {p : Platform} {d : Data} {ty : Ty} {s : Str} (hs : Safe p ty s) {w : FromString.Width} (h : ty.param d = some (.signed w)) :
    p.strictOverflow = false ∨ (w = .w8 ∨ w = .w16) ∨ s.head? ≠ some b%'-' := by
  cases ty <;> first
    | (rcases hs.2 with h' | h'; exact .inl h'; exact .inr (.inr h'))
    | (simp [Ty.param] at h; subst h; simp)
    | simp [Ty.param] at h

theorem reads_iff {p : Platform} {d : Data} {ty : Ty} {t : FromString.ParamTy} (ht : ty.param d = some t) {s : Str} (hs : Safe p ty s) (v : Value) :
    fromString p t s = .ok v ↔ Reads p d ty s v := by
  constructor
  · intro h
    cases t with
    | unsigned w =>
      obtain ⟨n, rfl, h1, h2⟩ := (C04_range p w s v).1 h
      exact .unsigned (unsigned_bits ht) h1 h2
    | signed w =>
      obtain ⟨i, rfl, h1, h2, h3⟩ := (C05_range_partial p w s v (safe_minus hs ht)).1 h
      rw [half] at h2 h3
      exact .signed (signed_bits ht) h1 h2 h3
    | bool =>
      have e : ty = .bool := by cases ty <;> simp [Ty.param] at ht <;> rfl
      subst e
      obtain ⟨b, rfl, hb⟩ := (C06_bool_partial p s v hs.2).1 h
      clear h
      rcases hb with ⟨rfl, rfl⟩ | ⟨rfl, rfl⟩ | ⟨h, rfl⟩ | ⟨h, rfl⟩
      · exact .word (by simp)
      · exact .word (by simp)
      · exact .bit h (by simp)
      · exact .bit h (by simp)
    | char =>
      have e : ty = .char := by cases ty <;> simp [Ty.param] at ht <;> rfl
      subst e
      obtain ⟨c, rfl, rfl⟩ := (C06_char p s v).1 h
      exact .char c
    | string =>
      have e : ty = .string := by cases ty <;> simp [Ty.param] at ht <;> rfl
      subst e
      rw [C06_string] at h; cases h
      exact .string s
    | float k =>
      obtain ⟨h1, n, h2, rfl⟩ := C08_float_whole_token p k s v h
      exact .float (float_kind ht) h1 h2
    | custom k =>
      have e : ty = .custom k := by cases ty <;> simp [Ty.param] at ht <;> subst ht <;> rfl
      subst e
      obtain ⟨n, sz, h1, h2, rfl⟩ := (C08_custom_whole_token p k s v).1 h
      exact .custom h1 h2
    | null =>
      have e : ty = .null := by cases ty <;> simp [Ty.param] at ht <;> rfl
      subst e
      cases h
      exact .null s
  · intro h
    cases h with
    | char c => cases ht; rfl
    | string s => cases ht; rfl
    | null s => cases ht; rfl
    | word hm =>
      cases ht
      refine (C06_bool_partial p s _ hs.2).2 ⟨_, rfl, ?_⟩
      simp at hm
      rcases hm with ⟨rfl, rfl⟩ | ⟨rfl, rfl⟩
      · exact .inl ⟨rfl, rfl⟩
      · exact .inr (.inl ⟨rfl, rfl⟩)
    | bit h1 hm =>
      cases ht
      refine (C06_bool_partial p s _ hs.2).2 ⟨_, rfl, ?_⟩
      simp at hm
      rcases hm with ⟨rfl, rfl⟩ | ⟨rfl, rfl⟩
      · exact .inr (.inr (.inl ⟨h1, rfl⟩))
      · exact .inr (.inr (.inr ⟨h1, rfl⟩))
    | unsigned hu h1 h2 =>
      obtain ⟨w, hw, rfl⟩ := bits_unsigned hu
      rw [hw] at ht; cases ht
      exact (C04_range p w s _).2 ⟨_, rfl, h1, h2⟩
    | signed hu h1 h2 h3 =>
      obtain ⟨w, hw, rfl⟩ := bits_signed hu
      have hm := safe_minus hs hw
      rw [hw] at ht; cases ht
      refine (C05_range_partial p w s _ hm).2 ⟨_, rfl, h1, ?_⟩
      rw [half]; exact ⟨h2, h3⟩
    | float hf h1 h2 =>
      have hk := kind_float (d := d) hf
      have := safe_bytes hs (w := .w8) (.inr (.inr (.inr hk)))
      rw [hk] at ht; cases ht
      exact C08_float_accepts p _ s _ this h1 h2
    | custom h1 h2 => cases ht; exact (C08_custom_whole_token p _ s _).2 ⟨_, _, h1, h2, rfl⟩

/-- An argument that does not fit is reported as such. -/
theorem safe_bad {p : Platform} {d : Data} {ty : Ty} {t : FromString.ParamTy} (ht : ty.param d = some t) {s : Str} (hs : Safe p ty s) (e : ConvErr)
    (h : fromString p t s = .error e) : e = .bad := by
  have no : ∀ {c}, c ∈ s → p.ctypeUB c = true → (∀ c ∈ s, p.ctypeUB c = false) → False := fun h1 h2 h3 => by rw [h3 _ h1] at h2; cases h2
  cases t with
  | unsigned w =>
    rcases C04_unsigned_rejects_partial p w s (fun ⟨n, h1, h2⟩ => by rw [(C04_unsigned_exact p w s (.int n)).2 ⟨n, rfl, h1, h2⟩] at h; cases h) with h' | ⟨h', c, hc, hu⟩
    · rw [h'] at h; cases h; rfl
    · exact (no hc hu (safe_bytes hs (k := 0) (.inl ht))).elim
  | signed w =>
    have hm := safe_minus hs ht
    rcases C05_signed_rejects_partial p w s hm (fun ⟨n, h1, h2⟩ => by rw [(C05_signed_exact_partial p w s (.int n) hm).2 ⟨n, rfl, h1, h2⟩] at h; cases h) with h' | ⟨h', c, hc, hu⟩
    · rw [h'] at h; cases h; rfl
    · exact (no hc hu (safe_bytes hs (k := 0) (.inr (.inl ht)))).elim
  | bool =>
    have hb := safe_bytes (w := .w8) (k := 0) hs (.inr (.inr (.inl ht)))
    have e' : ty = .bool := by cases ty <;> simp [Ty.param] at ht <;> rfl
    subst e'
    cases e with
    | bad => rfl
    | ub u =>
      rcases C07_conversion_ub_partial p .bool s u h with ⟨_, h1, c, hc, h2, h3⟩ | ⟨_, h1, h2, _⟩
      · exact (no hc (by simp [Platform.ctypeUB, h1, h2, h3]) hb).elim
      · rcases hs.2 with h' | h'
        · rw [h1] at h'; cases h'
        · exact absurd h2 h'
    | exn x =>
      exfalso
      simp only [fromString, FromString.boolFromString] at h
      split at h
      · simp [Except.map] at h
      split at h
      · simp [Except.map] at h
      cases hx : FromString.signedFromString p .w64 s with
      | ok i =>
        simp only [hx, bind, Except.bind] at h
        split at h
        · simp [Except.map, pure, Except.pure] at h
        split at h <;> simp [Except.map, pure, Except.pure, throw, throwThe, MonadExceptOf.throw] at h
      | error e' =>
        have hm : p.strictOverflow = false ∨ (FromString.Width.w64 = .w8 ∨ FromString.Width.w64 = .w16) ∨ s.head? ≠ some b%'-' := hs.2.elim .inl (fun h => .inr (.inr h))
        have hf : fromString p (.signed .w64) s = .error e' := by simp [fromString, hx, Except.map]
        have : e' ≠ .exn x := by
          rcases C05_signed_rejects_partial p .w64 s hm (fun ⟨n, h1, h2⟩ => by rw [(C05_signed_exact_partial p .w64 s (.int n) hm).2 ⟨n, rfl, h1, h2⟩] at hf; cases hf) with h' | ⟨h', _⟩ <;> rw [h'] at hf <;> cases hf <;> simp
        simp [hx, bind, Except.bind, Except.map] at h
        exact this h
  | char =>
    by_cases hl : s.length = 1
    · match s, hl with
      | [c], _ => simp [fromString, FromString.charFromString, Except.map] at h
    · rw [C06_char_rejects p s hl] at h; cases h; rfl
  | string => cases h
  | null => cases h
  | float k =>
    rcases C08_float_rejects_partial p k s e h with h' | ⟨_, c, hc, hu⟩
    · exact h'
    · exact (no hc hu (safe_bytes hs (w := .w8) (.inr (.inr (.inr ht))))).elim
  | custom k =>
    have e' : ty = .custom k := by cases ty <;> simp [Ty.param] at ht <;> subst ht <;> rfl
    subst e'
    rcases C08_custom_rejects_partial p k s e h with h' | ⟨x, hx, _⟩
    · exact h'
    · obtain ⟨o, ho⟩ := hs
      rw [ho] at hx; cases hx

/-! ### The parameters of a function -/

theorem param_ty {d : Data} {q : Par} {x : Param} (h : q.param d = some x) : q.ty.param d = some x.ty ∧ x.tname = q.ty.tname := by
  obtain ⟨ty, form⟩ := q
  cases form <;> simp [Par.param] at h
  all_goals obtain ⟨t, h1, rfl⟩ := h; exact ⟨h1, rfl⟩

theorem params_cons {d : Data} {q : Par} {qs : List Par} {xs : List Param} (h : params d (q :: qs) = some xs) :
    ∃ y ys, xs = y :: ys ∧ q.param d = some y ∧ params d qs = some ys := by
  simp only [params] at h
  split at h
  · cases h; exact ⟨_, _, rfl, by assumption, by assumption⟩
  · cases h

theorem params_length {d : Data} : ∀ {qs : List Par} {xs : List Param}, params d qs = some xs → xs.length = qs.length := by
  intro qs
  induction qs with
  | nil => intro xs h; cases h; rfl
  | cons q qs ih => intro xs h; obtain ⟨y, ys, rfl, _, h2⟩ := params_cons h; simp [ih h2]

theorem fits_iff {p : Platform} {d : Data} : ∀ {qs : List Par} {xs : List Param}, params d qs = some xs → ∀ {args : List Str} (vals : List Value),
    (qs.length = args.length → ∀ q a, (q, a) ∈ qs.zip args → Safe p q.ty a) → (Fits p xs args vals ↔ Each p d qs args vals)
  | [], xs, h, args, vals, _ => by
    cases h
    constructor <;> (intro h; cases h; constructor)
  | q :: qs, xs, h, args, vals, hs => by
    obtain ⟨y, ys, rfl, h1, h2⟩ := params_cons h
    have hlen : ∀ {xs : List Param} {args vals}, Fits p xs args vals → xs.length = args.length := by
      intro xs args vals h; induction h with
      | nil => rfl
      | cons _ _ ih => simp [ih]
    have hlen2 : ∀ {qs : List Par} {args vals}, Each p d qs args vals → qs.length = args.length := by
      intro xs args vals h; induction h with
      | nil => rfl
      | cons _ _ ih => simp [ih]
    constructor
    · intro hf
      have hs := hs ((params_length h).symm.trans (hlen hf))
      cases hf with
      | cons hv hr =>
        exact .cons ((reads_iff (param_ty h1).1 (hs _ _ (by simp)) _).1 hv) ((fits_iff h2 _ (fun _ q a hm => hs q a (by simp [hm]))).1 hr)
    · intro hf
      have hs := hs (hlen2 hf)
      cases hf with
      | cons hv hr =>
        exact .cons ((reads_iff (param_ty h1).1 (hs _ _ (by simp)) _).2 hv) ((fits_iff h2 _ (fun _ q a hm => hs q a (by simp [hm]))).2 hr)

theorem params_no_list {d : Data} {qs : List Par} {xs : List Param} (h : params d qs = some xs) : qs.map Par.ty ≠ [.strings] := by
  match qs with
  | [] => simp
  | q :: qs =>
    obtain ⟨y, ys, rfl, h1, h2⟩ := params_cons h
    have := (param_ty h1).1
    intro he
    simp at he
    rw [he.1] at this
    cases this

/-- The two kinds of commands. -/
theorem kind_cases {d : Data} {c : Call} {k : Kind} (h : c.kind d = some k) :
    (k = .freeform ∧ c.f.pars.map Par.ty = [.strings]) ∨ (∃ xs, k = .variadic xs ∧ params d c.f.pars = some xs) := by
  unfold Call.kind at h
  split at h
  · rename_i ps hf
    split at h
    · cases h
    · simp at h; obtain ⟨xs, h1, rfl⟩ := h
      exact .inr ⟨xs, rfl, by rw [hf]; exact h1⟩
  · rename_i hf; cases h; exact .inl ⟨rfl, by rw [hf]; rfl⟩
  · rename_i hf; cases h; exact .inl ⟨rfl, by rw [hf]; rfl⟩
  · rename_i ps _ _ hf
    simp at h; obtain ⟨xs, h1, rfl⟩ := h
    exact .inr ⟨xs, rfl, by rw [hf]; exact h1⟩
  · cases h

theorem takes_iff {p : Platform} {d : Data} {c : Call} {n : Nat} {x : Cmd} (h : c.command d n = some x) {args : List Str} (vals : List Value)
    (hs : c.f.pars.length = args.length → ∀ q a, (q, a) ∈ c.f.pars.zip args → Safe p q.ty a) :
    Accepts p x args vals ↔ Takes p d c.f args vals := by
  simp [Call.command] at h
  obtain ⟨k, hk, rfl⟩ := h
  unfold Takes
  rcases kind_cases hk with ⟨rfl, h1⟩ | ⟨xs, rfl, h1⟩
  · rw [if_pos h1]; rfl
  · rw [if_neg (params_no_list h1)]
    exact fits_iff h1 vals hs

/-! ### The menu -/

theorem entries_append (a b : Forest) : entries (a.append b) = entries a ++ entries b := by
  induction a with
  | nil => rfl
  | cmd c r ih => simp [Forest.append, entries, ih]
  | menu m k r _ ih => simp [Forest.append, entries, ih]

/-- The `i`-th entry is the command made of the `i`-th function. -/
theorem build_get {d : Data} : ∀ {cs : List Call} {acc kids : Forest} {n : Nat}, build d acc n cs = some kids →
    ∃ xs : List Cmd, entries kids = entries acc ++ xs.map Entry.cmd ∧ xs.length = cs.length ∧ ∀ (i : Nat) (c : Call), cs[i]? = some c → ∃ x, xs[i]? = some x ∧ c.command d (n + i) = some x
  | [], acc, kids, n, h => by cases h; exact ⟨[], by simp, rfl, by simp⟩
  | c :: cs, acc, kids, n, h => by
    simp only [build] at h
    split at h
    · rename_i x hx
      obtain ⟨xs, h1, h2, h3⟩ := build_get h
      refine ⟨x :: xs, by rw [h1, entries_append]; simp [entries], by simp [h2], ?_⟩
      intro i c' hi
      cases i with
      | zero => simp at hi; subst hi; exact ⟨x, by simp, hx⟩
      | succ i =>
        obtain ⟨y, hy, hc⟩ := h3 i c' (by simpa using hi)
        exact ⟨y, by simpa using hy, by rw [← hc]; congr 1; omega⟩
    · cases h

/-- The menu in which the functions have been inserted. -/
structure Menu {σ τ : Type} (d : Data) (cs : List Call) (w : World σ τ) : Prop where
  hist : History.WF w.hist
  /-- the functions of the list, one after the other, in an empty menu -/
  built : build d .nil 0 cs = some w.tree.kids
  here : w.current = w.tree.root.id
  enabled : ∀ i, w.dis i = false

section
variable {σ τ : Type} {A : App σ τ} {d : Data} {cs : List Call} {w : World σ τ}

theorem Menu.path (h : Menu d cs w) : w.tree.locate w.current = some [(w.tree.root, w.tree.kids)] := by
  simp [Tree.locate, h.here]

theorem Menu.no_step (h : Menu d cs w) {t : Str} {i : Nat} {q : Path} : ¬ StepAt w.dis [(w.tree.root, w.tree.kids)] t i q := by
  intro hs
  obtain ⟨xs, h1, _⟩ := build_get h.built
  cases hs with
  | down hm _ =>
    rw [h1] at hm
    simp [entries, List.getElem?_map] at hm

theorem Menu.des (h : Menu d cs w) {toks : List Str} {ks : List Nat} {x : Target} (hd : Des w.dis [(w.tree.root, w.tree.kids)] toks ks x) :
    ∃ i c y args, ks = [i] ∧ cs[i]? = some c ∧ c.command d i = some y ∧ x = .cmd y args ∧ toks = c.name :: args := by
  obtain ⟨xs, h1, h2, h3⟩ := build_get h.built
  generalize hp : [(w.tree.root, w.tree.kids)] = path at hd
  cases hd with
  | @here m kids anc i y args he hdis =>
    injection hp with hp _; injection hp with _ hp; subst hp
    rw [h1] at he
    simp [entries, List.getElem?_map] at he
    have hi : i < cs.length := by
      rw [← h2]
      exact (List.getElem?_eq_some_iff.1 he).1
    obtain ⟨y', hy, hc⟩ := h3 i cs[i] (by simp [hi])
    rw [he] at hy; cases hy
    simp at hc
    refine ⟨i, cs[i], y, args, rfl, by simp [hi], hc, rfl, ?_⟩
    simp [Call.command] at hc
    obtain ⟨k, _, rfl⟩ := hc
    rfl
  | enter hs => subst hp; exact absurd hs h.no_step
  | step hs _ => subst hp; exact absurd hs h.no_step

/-- The arguments can be read for all functions with that name. -/
def AllSafe (p : Platform) (cs : List Call) (name : Str) (args : List Str) : Prop :=
  ∀ c ∈ cs, c.name = name → c.f.pars.length = args.length → ∀ q a, (q, a) ∈ c.f.pars.zip args → Safe p q.ty a

/-- The line is a name with arguments, and not one of the commands that there are everywhere. -/
structure Typed (line name : Str) (args : List Str) : Prop where
  tokens : Lex.Line line (name :: args)
  own : name ∉ [bs!"help", bs!"exit", bs!"history", bs!"!"]

theorem command_kind {c : Call} {n : Nat} {x : Cmd} (h : c.command d n = some x) : c.kind d = some x.kind ∧ x.name = c.name ∧ x.fn = n ∧ x.id = n + 1 := by
  simp [Call.command] at h
  obtain ⟨k, hk, rfl⟩ := h
  exact ⟨hk, rfl, rfl, rfl⟩

theorem Menu.ready (h : Menu d cs w) {line name : Str} {args : List Str} (ht : Typed line name args) (hs : AllSafe A.plat cs name args) :
    Ready A w line (name :: args) [(w.tree.root, w.tree.kids)] where
  hist := h.hist
  tokens := ht.tokens
  user := {
    nonempty := by simp
    notGlobal := by intro b hb; have := ht.own; cases hb <;> simp at this
    ctype := by intro arg h; have := ht.own; simp at h; simp [h.1] at this }
  here := h.path
  clean := by
    intro x as hx ps hk hl q a hm e he
    obtain ⟨ks, hc⟩ := (designatesCmd_iff _ _ _ _ _).1 hx
    obtain ⟨i, c, y, as', _, hi, hy, hx, ht⟩ := h.des ((mem_cands _ _ _ _).1 hc).2
    cases hx
    injection ht with hn ha
    obtain ⟨k1, k2, k3⟩ := command_kind hy
    rw [hk] at k1
    rcases kind_cases k1 with ⟨h', _⟩ | ⟨xs, h', hp⟩
    · cases h'
    · cases h'
      have hsafe := hs c (List.mem_of_getElem? hi) hn.symm
      rw [ha] at hsafe
      have : ∀ {qs : List Par} {xs : List Param} {as : List Str}, params d qs = some xs → as.length = xs.length → (q, a) ∈ xs.zip as → qs.length = as.length ∧ ∃ r, (r, a) ∈ qs.zip as ∧ r.ty.param d = some q.ty := by
        intro qs
        induction qs with
        | nil => intro xs as h1 _ h2; cases h1; simp at h2
        | cons r rs ih =>
          intro xs as h1 hl h2
          obtain ⟨y, ys, rfl, h3, h4⟩ := params_cons h1
          cases as with
          | nil => simp at h2
          | cons b bs =>
            simp only [List.zip_cons_cons, List.mem_cons] at h2
            rcases h2 with h2 | h2
            · cases h2
              exact ⟨by rw [hl, params_length h1], r, by simp, (param_ty h3).1⟩
            · obtain ⟨h5, r', h6, h7⟩ := ih h4 (by simpa using hl) h2
              exact ⟨by simp [h5], r', by simp [h6], h7⟩
      obtain ⟨hlen, r, hr, hty⟩ := this hp hl hm
      exact safe_bad hty (hsafe hlen r a hr) e he

/-- **C109** (partial: the exceptions are in `AllSafe`, and the function does not throw a `bad_cast`) Functions are inserted in a menu. A line with a name and arguments calls the first function inserted under that name that the arguments fit:
    with the values that the arguments denote, in order. There is one such list of values. Of all functions only this one is called. -/
theorem C109_call_partial (hm : Menu d cs w) (fuel : Nat) {line name : Str} {args : List Str} (ht : Typed line name args) (hs : AllSafe A.plat cs name args)
    {i : Nat} {c : Call} (hi : cs[i]? = some c) (hn : c.name = name) {vals : List Value} (hv : Takes A.plat d c.f args vals)
    (hfirst : ∀ j c', j < i → cs[j]? = some c' → c'.name = name → ∀ vals', ¬ Takes A.plat d c'.f args vals')
    (hb : ∀ what, (A.handler i w.app vals).exn ≠ some (.badCast what)) :
    let e := A.handler i w.app vals
    let r := report A line e.exn e.app
    ∃ w' x, feed A (fuel + 1) line w = .ok (w', r.exn) ∧ w'.app = r.app ∧ w'.io.out = w.io.out ++ written e.acts ++ written r.acts ∧ w'.current = w.current ∧ w'.exit = w.exit ∧
      x.fn = i ∧ w'.log = w.log ++ .ran x vals w.snap e.exn :: reportOf line e.exn := by
  intro e r
  obtain ⟨xs, h1, h2, h3⟩ := build_get hm.built
  obtain ⟨x, hx, hc⟩ := h3 i c hi
  simp only [Nat.zero_add] at hc
  obtain ⟨k1, k2, k3, k4⟩ := command_kind hc
  have hr := hm.ready ht hs
  have hsafe : ∀ {j : Nat} {c' : Call}, cs[j]? = some c' → c'.name = name → c'.f.pars.length = args.length → ∀ q a, (q, a) ∈ c'.f.pars.zip args → Safe A.plat q.ty a :=
    fun hj hn => hs _ (List.mem_of_getElem? hj) hn
  have hacc : Accepts A.plat x args vals := (takes_iff hc vals (hsafe hi hn)).2 hv
  have hnx : x.name = name := k2.trans hn
  have hchosen : Chosen A.plat w.dis [(w.tree.root, w.tree.kids)] (name :: args) (.cmd x args) := by
    refine ⟨hm.enabled _, [i], ?_, fun h => h _ hacc, ?_⟩
    · rw [← hnx]
      exact .here (by rw [h1]; simp [entries, hx]) (hm.enabled _)
    · intro ks t hd hlt
      obtain ⟨j, c', y, as, rfl, hj, hy, rfl, he⟩ := hm.des hd
      injection he with e1 e2
      subst e2
      have hlt : j < i := by simpa [Spec.Lex] using hlt
      intro vals' ha
      exact hfirst j c' hlt hj e1.symm vals' ((takes_iff hy vals' (hsafe hj e1.symm)).1 ha)
  have hsw : ¬ x.Swallows (A.handler x.fn w.app vals).exn := by
    rintro ⟨_, what, h⟩
    rw [k3] at h
    exact hb what h
  obtain ⟨w1, f1, f2, f3, f4, f5, _⟩ := C11_effect A fuel w line _ _ hr x args vals hchosen hacc hsw
  obtain ⟨w2, y, g1, g2⟩ := C11_first_match_wins_partial A fuel w line _ _ hr x args vals hchosen hacc hsw
  rw [k3] at f1 f2 f3 g2
  rw [f1] at g1
  cases g1
  exact ⟨w1, x, f1, f2, f3, f4, f5, k3, g2⟩

/-- **C109** (partial, as before) If the arguments fit no function of that name, then no function is called, and the line is reported as wrong. -/
theorem C109_wrong_partial (hm : Menu d cs w) (fuel : Nat) {line name : Str} {args : List Str} (ht : Typed line name args) (hs : AllSafe A.plat cs name args)
    (hno : ∀ c ∈ cs, c.name = name → ∀ vals, ¬ Takes A.plat d c.f args vals) :
    let e := complain A line w.app
    let r := report A line e.exn e.app
    ∃ w', feed A (fuel + 1) line w = .ok (w', r.exn) ∧ w'.app = r.app ∧ w'.io.out = w.io.out ++ written e.acts ++ written r.acts ∧ w'.current = w.current ∧ w'.exit = w.exit ∧
      w'.log = w.log ++ .wrong line :: reportOf line e.exn := by
  intro e r
  have hcmd : ∀ x as vals, DesignatesCmd w.dis [(w.tree.root, w.tree.kids)] (name :: args) x as → ¬ Accepts A.plat x as vals := by
    intro x as vals hx ha
    obtain ⟨ks, hc⟩ := (designatesCmd_iff _ _ _ _ _).1 hx
    obtain ⟨i, c, y, as', _, hi, hy, hx, he⟩ := hm.des ((mem_cands _ _ _ _).1 hc).2
    cases hx
    injection he with e1 e2
    subst e2
    have hmem := List.mem_of_getElem? hi
    exact hno c hmem e1.symm vals ((takes_iff hy vals (hs c hmem e1.symm)).1 ha)
  have hmenu : ∀ q, ¬ DesignatesMenu w.dis [(w.tree.root, w.tree.kids)] (name :: args) q := by
    intro q hq
    obtain ⟨ks, hc⟩ := (designatesMenu_iff _ _ _ _).1 hq
    obtain ⟨_, _, _, _, _, _, _, h, _⟩ := hm.des ((mem_cands _ _ _ _).1 hc).2
    cases h
  have hr := hm.ready ht hs
  obtain ⟨w', f1, f2, f3, f4, f5, _⟩ := C12_effect A fuel w line _ _ hr hcmd hmenu
  refine ⟨w', f1, f2, f3, f4, f5, ?_⟩
  obtain ⟨h, hh, _⟩ := History.newCommand_ok hr.hist line
  rcases feed_cases A hr.tokens hr.user fuel w hh hr.here hr.clean with ⟨_, _, h3⟩ | ⟨m, k, q, ⟨he, ks, hd, _⟩, _⟩ | ⟨x, as, vs, ⟨he, ks, hd, _⟩, ha, _⟩
  · rw [f1] at h3
    injection h3 with h3
    have hw : w' = (afterHandler A line (wrongCommand A line (w.entered h)).2 (wrongCommand A line (w.entered h)).1).1 := by rw [← h3]
    have hx : (wrongCommand A line (w.entered h)).2 = e.exn := by
      simp only [wrongCommand, e, complain]
      cases A.onWrong <;> rfl
    rw [hw, afterHandler_log, wrong_log, hx]
    simp [World.entered]
  · exact absurd ((designatesMenu_iff _ _ _ _).2 ⟨ks, (mem_cands _ _ _ _).2 ⟨he, hd⟩⟩) (hmenu _)
  · exact absurd ha (hcmd _ _ _ ((designatesCmd_iff _ _ _ _ _).2 ⟨ks, (mem_cands _ _ _ _).2 ⟨he, hd⟩⟩))

/-- **C109** Arguments that can be read denote one list of values for a function that can be inserted. -/
theorem C109_values {p : Platform} {c : Call} {n : Nat} {x : Cmd} (hc : c.command d n = some x) {args : List Str}
    (hs : c.f.pars.length = args.length → ∀ q a, (q, a) ∈ c.f.pars.zip args → Safe p q.ty a) {v v' : List Value} (h : Takes p d c.f args v) (h' : Takes p d c.f args v') : v = v' :=
  accepts_unique ((takes_iff hc v hs).2 h) ((takes_iff hc v' hs).2 h')

/-- **C109** As many arguments as parameters are needed, unless the parameter is a list. -/
theorem C109_count {p : Platform} {f : Fun} {args : List Str} {vals : List Value} (h : Takes p d f args vals) (hf : f.pars.map Par.ty ≠ [.strings]) :
    args.length = f.pars.length ∧ vals.length = f.pars.length := by
  unfold Takes at h
  rw [if_neg hf] at h
  generalize f.pars = qs at h
  induction h with
  | nil => exact ⟨rfl, rfl⟩
  | cons _ _ ih => simp [ih]

/-! ### Help -/

theorem tname_spelling (ty : Ty) : ty.tname = (ty.spelling.map angle).getD [] := by cases ty <;> rfl

theorem params_names : ∀ {qs : List Par} {xs : List Param}, params d qs = some xs → xs.map Param.tname = qs.map (fun q => (q.ty.spelling.map angle).getD [])
  | [], xs, h => by cases h; rfl
  | q :: qs, xs, h => by
    obtain ⟨y, ys, rfl, h1, h2⟩ := params_cons h
    simp [params_names h2, (param_ty h1).2, tname_spelling]

theorem command_item {c : Call} {n : Nat} {x : Cmd} (h : c.command d n = some x) : cmdItem x = c.item := by
  simp [Call.command] at h
  obtain ⟨k, hk, rfl⟩ := h
  have : cmdParams ⟨n + 1, c.name, k, n, c.desc, c.parDesc⟩ = c.shown := by
    unfold cmdParams Call.shown
    cases hp : c.parDesc with
    | cons e es => cases k <;> rfl
    | nil =>
      rcases kind_cases hk with ⟨rfl, h1⟩ | ⟨xs, rfl, h1⟩
      · simp only
        have : c.f.pars.map (fun q => (q.ty.spelling.map angle).getD []) = (c.f.pars.map Par.ty).map (fun t => (t.spelling.map angle).getD []) := by simp
        rw [this, h1]; rfl
      · exact params_names h1
  simp only [cmdItem, this]
  rfl

theorem build_entries : ∀ {cs : List Call} {acc kids : Forest} {n : Nat}, build d acc n cs = some kids → (entries kids).map entryItem = (entries acc).map entryItem ++ cs.map Call.item
  | [], acc, kids, n, h => by cases h; simp
  | c :: cs, acc, kids, n, h => by
    simp only [build] at h
    split at h
    · rename_i x hx
      rw [build_entries h, entries_append]
      simp [entries, entryItem, command_item hx]
    · cases h

/-- **C109** In the menu, `help` lists the commands that there are everywhere and then the functions in the order of insertion: each with its name, with the descriptions of the parameters that were given or else with
    the types of its parameters, and with its help text, which is empty if none was given. -/
theorem C109_help (hm : Menu d cs w) (fuel : Nat) {line : Str} (hl : Lex.Line line [bs!"help"]) :
    ∃ w', feed A (fuel + 1) line w = .ok (w', none) ∧ w'.io.out = w.io.out ++ bs!"Commands available:\n" ++ (globalItems ++ cs.map Call.item).flatMap HelpItem.text := by
  obtain ⟨h, _, hf⟩ := C59_help A fuel line w hm.hist _ hl hm.path (hm.enabled _)
  refine ⟨_, hf, ?_⟩
  have he : (entries w.tree.kids).map entryItem = cs.map Call.item := by simpa [entries] using build_entries hm.built
  have hf : ∀ l : List Entry, l.filter (fun e => !w.dis (entryId e)) = l := by intro l; simp [hm.enabled]
  simp only [Io.put, helpFor, menuItems, hf, he]
  simp

/-! ### What can be inserted -/

theorem params_some : ∀ (qs : List Par), (params d qs).isSome = true ↔ ∀ q ∈ qs, q.form ∈ [.value, .constRef] ∧ q.ty ≠ .strings
  | [] => by simp [params]
  | q :: qs => by
    have ih := params_some qs
    have hq : (q.param d).isSome = true ↔ q.form ∈ [.value, .constRef] ∧ q.ty ≠ .strings := by
      obtain ⟨ty, form⟩ := q
      cases form <;> cases ty <;> simp [Par.param, Ty.param]
    simp only [List.forall_mem_cons, ← hq, ← ih, params]
    cases q.param d <;> cases params d qs <;> simp

/-- **C109** The calls of `Insert` that compile: the parameters are passed by value or by reference to `const`; a pointer to a function needs a help text, which comes before the descriptions; an object needs an `operator()` that is
    `const`; and a list of strings must be the only parameter, and not that of a pointer. -/
theorem C109_compiles (c : Call) : (c.kind d).isSome = true ↔
    (∀ q ∈ c.f.pars, q.form ∈ [.value, .constRef]) ∧
    (match c.f with
      | .pointer ps => c.help ≠ none ∧ c.first = false ∧ ∀ q ∈ ps, q.ty ≠ .strings
      | .object ps => (∀ q ∈ ps, q.ty ≠ .strings) ∨ ps.map Par.ty = [.strings]
      | .changing _ => False) := by
  obtain ⟨name, f, help, pd, first⟩ := c
  have split : ∀ ps : List Par, (params d ps).isSome = true ↔ (∀ q ∈ ps, q.form ∈ [.value, .constRef]) ∧ ∀ q ∈ ps, q.ty ≠ .strings := by
    intro ps
    rw [params_some]
    exact ⟨fun h => ⟨fun q hq => (h q hq).1, fun q hq => (h q hq).2⟩, fun h q hq => ⟨h.1 q hq, h.2 q hq⟩⟩
  cases f with
  | changing ps => simp [Call.kind]
  | pointer ps =>
    have := split ps
    simp only [Call.kind, Fun.pars]
    cases first <;> cases help <;> simp [this] <;> simpa using this
  | object ps =>
    have hs := split ps
    simp only [Fun.pars]
    by_cases hl : ps.map Par.ty = [.strings]
    · match ps, hl with
      | [⟨ty, form⟩], hl =>
        simp at hl; subst hl
        cases form <;> simp [Call.kind, params, Par.param]
    · have : Call.kind d ⟨name, .object ps, help, pd, first⟩ = (params d ps).map .variadic := by
        unfold Call.kind
        split
        · rename_i h; simp at h
        · rename_i h; simp at h; subst h; simp at hl
        · rename_i h; simp at h; subst h; simp at hl
        · rename_i h; simp at h; subst h; rfl
        · rename_i h; simp at h
      rw [this]
      simp only [Option.isSome_map, hs, hl, or_false]

end

/-! ### Concrete cases -/

namespace Example

/-- `void set(std::ostream&, int, const std::string&)`, a lambda with the same name and two strings, another with a list; a type with `operator>>`; an unsigned number with a description. -/
def calls : List Call :=
  [⟨bs!"set", .pointer [⟨.int, .value⟩, ⟨.string, .constRef⟩], some bs!"Set", [], false⟩,
   ⟨bs!"set", .object [⟨.string, .constRef⟩, ⟨.string, .value⟩], none, [], false⟩,
   ⟨bs!"all", .object [⟨.strings, .constRef⟩], some bs!"All", [], false⟩,
   ⟨bs!"put", .object [⟨.custom 0, .constRef⟩, ⟨.bool, .value⟩], some bs!"Put", [], false⟩,
   ⟨bs!"byte", .object [⟨.uchar, .value⟩], some bs!"Byte", [bs!"number"], true⟩]

def lp64 : Data := ⟨true⟩

/-- The functions record what they are called with. -/
def app : App (List (Nat × List Value)) (List Str) :=
  { plat := plat, handler := fun n s vals => ⟨s ++ [(n, vals)], [], none⟩, onException := none, onWrong := none, enterGlobal := none, exitGlobal := none,
    enterSession := none, exitSession := none, store := fun _ l => l, stored := id }

def kids : Forest := (build lp64 .nil 0 calls).getD .nil

def world : World (List (Nat × List Value)) (List Str) :=
  { app := [], tree := ⟨⟨0, bs!"cli", bs!"", bs!"cli"⟩, kids⟩, dis := fun _ => false, used := [0, 1, 2, 3, 4, 5], gen := 0, storage := [], io := Sample.io, casts := [],
    hist := History.init 10, current := 0, exit := false, log := [] }

theorem menu : Menu lp64 calls world := ⟨History.wf_init 10, by decide +kernel, rfl, fun _ => rfl⟩

def run (line : Str) : Option (List (Nat × List Value) × Str) := (feed app 1 line world).toOption.map (fun r => (r.1.app, r.1.io.out))

example : run bs!"set -4 'a b'" = some ([(0, [.int (-4), .str bs!"a b"])], []) := by decide +kernel
example : run bs!"set x 7" = some ([(1, [.str bs!"x", .str bs!"7"])], []) := by decide +kernel
example : run bs!"set 2147483648 7" = some ([(1, [.str bs!"2147483648", .str bs!"7"])], []) := by decide +kernel
example : run bs!"set 1" = some ([], bs!"wrong command: set 1\n") := by decide +kernel
example : run bs!"all x 7" = some ([(2, [.str bs!"x", .str bs!"7"])], []) := by decide +kernel
example : run bs!"all" = some ([(2, [])], []) := by decide +kernel
example : run bs!"byte 255" = some ([(4, [.int 255])], []) := by decide +kernel
example : run bs!"byte 256" = some ([], bs!"wrong command: byte 256\n") := by decide +kernel

/-- The second function is called, as the arguments do not fit the first. -/
example : ∃ w' x, feed app 1 bs!"set x 7" world = .ok (w', none) ∧ w'.app = [(1, [.str bs!"x", .str bs!"7"])] ∧ x.fn = 1 ∧ w'.log = [.ran x [.str bs!"x", .str bs!"7"] world.snap none] := by
  have hsafe : AllSafe app.plat calls bs!"set" [bs!"x", bs!"7"] := by
    intro c hc hn
    simp [calls] at hc
    rcases hc with rfl | rfl | rfl | rfl | rfl
    · intro _ q a hm; simp [Fun.pars] at hm; rcases hm with ⟨rfl, rfl⟩ | ⟨rfl, rfl⟩
      · exact ⟨by decide, .inl rfl⟩
      · trivial
    · intro _ q a hm; simp [Fun.pars] at hm; rcases hm with ⟨rfl, rfl⟩ | ⟨rfl, rfl⟩ <;> trivial
    all_goals (exfalso; revert hn; decide)
  have ht : Typed bs!"set x 7" bs!"set" [bs!"x", bs!"7"] := ⟨(split_iff _ _).1 rfl, by decide⟩
  obtain ⟨w', x, h1, h2, _, _, _, h3, h4⟩ := C109_call_partial (A := app) menu 0 ht hsafe (i := 1) rfl rfl (vals := [.str bs!"x", .str bs!"7"])
    (.cons (.string _) (.cons (.string _) .nil)) (by
      intro j c' hj hc' _ vals hv
      have : j = 0 := by omega
      subst this
      cases hc'
      cases hv with
      | cons hr _ =>
        cases hr with
        | signed _ hs _ _ =>
          obtain ⟨ds, hd, h⟩ := hs
          rcases h with ⟨h, _⟩ | ⟨h, _⟩ | ⟨h, _⟩
          · subst h; have := hd.2 b%'x' (by simp); revert this; unfold Number.Digit; decide
          · revert h; simp
          · revert h; simp
        | unsigned h => cases h
        | float h => cases h) (by intro what; simp [app])
  exact ⟨w', x, h1, h2, h3, h4⟩

/-- No function has one argument and that name. -/
example : ∃ w', feed app 1 bs!"set 1" world = .ok (w', none) ∧ w'.app = [] ∧ w'.io.out = bs!"wrong command: set 1\n" ∧ w'.log = [.wrong bs!"set 1"] := by
  have ht : Typed bs!"set 1" bs!"set" [bs!"1"] := ⟨(split_iff _ _).1 rfl, by decide⟩
  obtain ⟨w', h1, h2, h3, _, _, h4⟩ := C109_wrong_partial (A := app) menu 0 ht (by
    intro c hc hn
    simp [calls] at hc
    rcases hc with rfl | rfl | rfl | rfl | rfl
    · intro h; cases h
    · intro h; cases h
    all_goals (exfalso; revert hn; decide)) (by
    intro c hc hn vals hv
    simp [calls] at hc
    rcases hc with rfl | rfl | rfl | rfl | rfl
    · cases hv with | cons _ h => cases h
    · cases hv with | cons _ h => cases h
    all_goals (exfalso; revert hn; decide))
  exact ⟨w', h1, h2, h3, h4⟩

/-- Of the type with `operator>>` nothing but a space is shown. -/
example : ∃ w', feed app 1 bs!"help" world = .ok (w', none) ∧ w'.io.out = bs!"Commands available:\n" ++ globalItems.flatMap HelpItem.text ++
    bs!" - set <int> <string>\n\tSet\n - set <string> <string>\n\t\n - all <list of strings>\n\tAll\n - put  <bool>\n\tPut\n - byte <number>\n\tByte\n" := by
  obtain ⟨w', h1, h2⟩ := C109_help (A := app) menu 0 (line := bs!"help") ((split_iff _ _).1 rfl)
  exact ⟨w', h1, by rw [h2]; decide +kernel⟩

end Example

/-! ### Refutations -/

/-- **C109** (refutation of "`help` shows the type of every parameter") Of a parameter of a type with a user-defined `operator>>`, and of a `nullptr_t`, nothing is shown. -/
theorem C109_refuted_help (c : Call) (hp : c.parDesc = []) (q : Par) (hq : c.f.pars = [q]) (h : q.ty = .null ∨ ∃ k, q.ty = .custom k) : c.item.params = [[]] := by
  rcases h with h | ⟨k, h⟩ <;> simp [Call.item, Call.shown, hp, hq, h, Ty.spelling]

example : (⟨bs!"put", .object [⟨.custom 0, .constRef⟩], some bs!"Put", [], false⟩ : Call).item.text = bs!" - put \n\tPut\n" := by decide

/-- **C109** (refutation of "a function can be inserted as well as a lambda with the same parameters") A lambda with a list of strings makes a command, also without a help text; a function with these parameters does not compile, nor does any function without a help text. -/
theorem C109_refuted_function (d : Data) (name : Str) (help : Option Str) (parDesc : List Str) (first : Bool) (ps : List Par) :
    let list : List Par := [⟨.strings, .constRef⟩]
    Call.kind d ⟨name, .object list, help, parDesc, first⟩ = some .freeform ∧ Call.kind d ⟨name, .pointer list, help, parDesc, first⟩ = none ∧
    Call.kind d ⟨name, .pointer ps, none, parDesc, first⟩ = none := by
  refine ⟨rfl, ?_, ?_⟩
  · cases help <;> cases first <;> rfl
  · cases first <;> rfl

/-- The first function throws a `bad_cast`. -/
def Example.thrower : App (List (Nat × List Value)) (List Str) :=
  { Example.app with handler := fun n s vals => ⟨s ++ [(n, vals)], [], if n = 0 then some (.badCast bs!"bad") else none⟩ }

/-- **C109** (refutation of "only the first function that the arguments fit is called", without the condition on exceptions) If it throws a `bad_cast`, then another one is called as well. -/
theorem C109_refuted_twice : (feed Example.thrower 1 bs!"set 1 x" Example.world).toOption.map (fun r => r.1.app) = some [(0, [.int 1, .str bs!"x"]), (1, [.str bs!"1", .str bs!"x"])] := by
  decide +kernel

/-- **C109** (refutation of the statement without the conditions on the arguments) Where `char` is signed, an argument with a byte above 127 for an `int` is undefined behaviour, though a function with two strings could be called. -/
theorem C109_refuted_byte : (match feed Example.app 1 [b%'s', b%'e', b%'t', b%' ', 200, b%' ', b%'x'] Example.world with | .error (.ub .ctype) => true | _ => false) = true := by
  decide +kernel

end Verif.Signature
