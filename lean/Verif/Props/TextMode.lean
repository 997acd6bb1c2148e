import Verif.Model.TextMode
import Verif.Props.Storage

/-!
# C110: the history file where files are opened in text mode
-/

set_option linter.unusedSimpArgs false

namespace Verif.TextMode
open Storage Props

/-! ### Specification -/

/-- The text up to the first Ctrl-Z. -/
def upTo (s : Str) : Str := s.takeWhile (fun c => c ≠ 26)

/-- What is found of a list of commands: everything up to the first Ctrl-Z. -/
def found : List Str → List Str
  | [] => []
  | c :: cs => if 26 ∈ c then (if upTo c = [] then [] else [upTo c]) else c :: found cs

/-- No command contains a Ctrl-Z. -/
def NoCtrlZ (l : List Str) : Prop := ∀ c ∈ l, 26 ∉ c

def TextStore.apply (s : TextStore) : StOp → TextStore
  | .store cmds => s.store cmds
  | .clear => s.clear
  | .restart => ⟨s.maxSize, s.file⟩

/-- What is kept of `size` commands after a sequence of operations. -/
def kept (size : Nat) : List StOp → List Str → List Str
  | [], acc => acc
  | .store cmds :: ops, acc => kept size ops (found (lastN size (acc ++ cmds)))
  | .clear :: ops, _ => kept size ops []
  | .restart :: ops, acc => kept size ops acc

/-! ### Translation -/

theorem decode_encode : ∀ s : Str, decode (encode s) = upTo s
  | [] => rfl
  | [c] => by
    unfold upTo
    by_cases h : c = b%'\n'
    · subst h; decide
    · by_cases h' : c = 26
      · subst h'; decide
      · simp [encode, h, decode, h', List.takeWhile]
  | c :: d :: s => by
    have ih := decode_encode (d :: s)
    by_cases h : c = b%'\n'
    · subst h
      have h1 : (b%'\r' : Byte) ≠ 26 := by decide
      have h2 : upTo (b%'\n' :: d :: s) = b%'\n' :: upTo (d :: s) := rfl
      rw [encode, if_pos rfl, h2, ← ih, decode, if_neg h1, if_pos ⟨rfl, rfl⟩]
    · by_cases h' : c = 26
      · subst h'
        have h2 : upTo ((26 : Byte) :: d :: s) = [] := rfl
        rw [encode, if_neg h, h2]
        by_cases hd : d = b%'\n'
        · subst hd; rw [encode, if_pos rfl, decode, if_pos rfl]
        · rw [encode, if_neg hd, decode, if_pos rfl]
      · have h2 : upTo (c :: d :: s) = c :: upTo (d :: s) := by simp [upTo, List.takeWhile, h']
        rw [h2, ← ih, encode, if_neg h]
        by_cases hd : d = b%'\n'
        · subst hd
          rw [encode, if_pos rfl]
          rw [decode, if_neg h', if_neg (by rintro ⟨_, h⟩; revert h; decide)]
        · rw [encode, if_neg hd]
          rw [decode, if_neg h', if_neg (by rintro ⟨_, h⟩; exact hd h)]

/-- A line feed and a carriage return in any combination come back as they were. -/
example : decode (encode [b%'a', b%'\r', b%'\n', b%'\r', b%'\r', b%'\n', b%'\n', b%'\r', b%'b']) = [b%'a', b%'\r', b%'\n', b%'\r', b%'\r', b%'\n', b%'\n', b%'\r', b%'b'] := by decide

theorem upTo_append {a : Str} (h : 26 ∉ a) (b : Str) : upTo (a ++ b) = a ++ upTo b := by
  induction a with
  | nil => rfl
  | cons c a ih =>
    simp only [List.mem_cons, not_or] at h
    have hc : c ≠ 26 := fun e => h.1 e.symm
    have := ih h.2
    unfold upTo at *
    simpa [List.takeWhile, hc] using this

theorem upTo_stops {a : Str} (h : 26 ∈ a) (b : Str) : upTo (a ++ b) = upTo a := by
  induction a with
  | nil => simp at h
  | cons c a ih =>
    by_cases hc : c = 26
    · subst hc; rfl
    · have h' : 26 ∈ a := by
        rcases List.mem_cons.1 h with e | e
        · exact absurd e.symm hc
        · exact e
      have := ih h'
      unfold upTo at *
      simpa [List.takeWhile, hc] using this

theorem upTo_subset {a : Str} {c : Byte} (h : c ∈ upTo a) : c ∈ a ∧ c ≠ 26 := by
  induction a with
  | nil => simp [upTo] at h
  | cons x a ih =>
    unfold upTo at h ih
    by_cases hx : x = 26
    · subst hx; simp [List.takeWhile] at h
    · simp [List.takeWhile, hx] at h
      rcases h with rfl | h
      · exact ⟨by simp, hx⟩
      · have := ih (by simpa using h)
        exact ⟨by simp [this.1], this.2⟩

theorem getlines_last : ∀ (s cur : Str), b%'\n' ∉ s → getlines cur s = if cur ++ s = [] then [] else [cur ++ s]
  | [], cur, _ => by simp [getlines]
  | c :: s, cur, h => by
    simp only [List.mem_cons, not_or] at h
    rw [getlines, if_neg (fun e => h.1 e.symm), getlines_last s _ h.2]
    simp

theorem getlines_found (l : List Str) (h : NoNewline l) : getlines [] (upTo (l.flatMap (fun line => line ++ [b%'\n']))) = found l := by
  induction l with
  | nil => rfl
  | cons c cs ih =>
    have h1 := h c (by simp)
    have h2 : NoNewline cs := fun d hd => h d (by simp [hd])
    unfold found
    split
    · rename_i hc
      rw [List.flatMap_cons, List.append_assoc, upTo_stops hc, getlines_last _ _ (fun hm => h1 (upTo_subset hm).1)]
      rfl
    · rename_i hc
      rw [List.flatMap_cons, List.append_assoc, upTo_append hc]
      have h3 : upTo ([b%'\n'] ++ cs.flatMap (fun line => line ++ [b%'\n'])) = b%'\n' :: upTo (cs.flatMap (fun line => line ++ [b%'\n'])) := rfl
      rw [h3, getlines_line c _ [] h1, ih h2]
      rfl

theorem text_noNewline (s : TextStore) : NoNewline s.Commands := by
  unfold TextStore.Commands
  split
  · intro c hc; simp at hc
  · exact getlines_noNewline _ _ (by simp)

theorem lastN_noNewline {n : Nat} {a b : List Str} (ha : NoNewline a) (hb : NoNewline b) : NoNewline (lastN n (a ++ b)) := by
  intro c hc
  have := List.mem_of_mem_drop hc
  simp only [List.mem_append] at this
  exact this.elim (ha c) (hb c)

/-! ### The property -/

/-- **C110** What `Store` leaves: of the last `maxSize` commands of the file and the new ones, everything up to the first Ctrl-Z. For all files, whatever they contain. -/
theorem C110_store (s : TextStore) (cmds : List Str) (h : NoNewline cmds) : (s.store cmds).Commands = found (lastN s.maxSize (s.Commands ++ cmds)) := by
  show getlines [] (decode (encode _)) = _
  rw [decode_encode, appendBounded_eq]
  exact getlines_found _ (lastN_noNewline (text_noNewline s) h)

/-- **C110** What is found in the file after any sequence of `Store`, `Clear` and restarts. -/
theorem C110_sequence (ops : List StOp) (h : OpsNoNewline ops) : ∀ s : TextStore, (ops.foldl TextStore.apply s).Commands = kept s.maxSize ops s.Commands := by
  induction ops with
  | nil => intro s; rfl
  | cons op ops ih =>
    intro s
    have ho : OpsNoNewline ops := fun cmds hcm => h cmds (by simp [hcm])
    cases op with
    | store cmds =>
      have := ih ho (s.store cmds)
      rw [C110_store s cmds (h cmds (by simp))] at this
      exact this
    | clear => exact ih ho s.clear
    | restart => exact ih ho _

theorem found_clean : ∀ {l : List Str}, NoCtrlZ l → found l = l
  | [], _ => rfl
  | c :: cs, h => by
    rw [found, if_neg (h c (by simp)), found_clean (fun d hd => h d (by simp [hd]))]

/-- All commands ever stored are free of Ctrl-Z. -/
def OpsNoCtrlZ (ops : List StOp) : Prop := ∀ cmds, .store cmds ∈ ops → NoCtrlZ cmds

/-- **C110** (partial) For commands without newline and Ctrl-Z, text mode makes no difference: the storage behaves as one that keeps everything in memory.
    Missing: commands with a Ctrl-Z, see `C110_refuted`. -/
theorem C110_same_partial (size : Nat) (ops : List StOp) (h : OpsNoNewline ops) (hz : OpsNoCtrlZ ops) :
    (ops.foldl TextStore.apply ⟨size, none⟩).Commands = lastN size (storedSince ops []) := by
  rw [C110_sequence ops h]
  have gen : ∀ (ops : List StOp) (acc all : List Str), OpsNoCtrlZ ops → NoCtrlZ all → acc = lastN size all → kept size ops acc = lastN size (storedSince ops all) := by
    intro ops
    induction ops with
    | nil => intro acc all _ _ h; exact h
    | cons op ops ih =>
      intro acc all ho ha he
      have ho' : OpsNoCtrlZ ops := fun cmds hcm => ho cmds (by simp [hcm])
      cases op with
      | store cmds =>
        have hall : NoCtrlZ (all ++ cmds) := by
          intro c hc
          rcases List.mem_append.1 hc with h1 | h1
          · exact ha c h1
          · exact ho cmds (by simp) c h1
        refine ih _ _ ho' hall ?_
        rw [he, lastN_append_lastN]
        exact found_clean (fun c hc => hall c (List.mem_of_mem_drop hc))
      | clear => exact ih _ _ ho' (by intro c hc; simp at hc) (by simp [lastN])
      | restart => exact ih _ _ ho' ha he
  exact gen ops [] [] hz (by intro c hc; simp at hc) (by simp [lastN])

example : ([StOp.store [bs!"x"], .restart, .store [bs!"a", bs!"", [b%'c', b%'\r']], .restart].foldl TextStore.apply ⟨3, none⟩).Commands = [bs!"a", bs!"", [b%'c', b%'\r']] := by rfl

/-- **C110** (refutation of the statement without the condition) A command with a Ctrl-Z in it is cut, and all those after it are lost, whatever is stored later. -/
theorem C110_refuted (size : Nat) (s : TextStore) (a b : List Str) (x y : Str) (ha : NoNewline a ∧ NoCtrlZ a) (hb : NoNewline b) (hx : 26 ∉ x ∧ b%'\n' ∉ x) (hy : b%'\n' ∉ y)
    (hs : s = ⟨size, none⟩) (hl : a.length + 1 + b.length ≤ size) :
    (s.store (a ++ (x ++ 26 :: y) :: b)).Commands = a ++ (if x = [] then [] else [x]) := by
  subst hs
  rw [C110_store _ _ (by
    intro c hc
    simp only [List.mem_append, List.mem_cons] at hc
    rcases hc with h | rfl | h
    · exact ha.1 c h
    · simp only [List.mem_append, List.mem_cons, not_or]; exact ⟨hx.2, by decide, hy⟩
    · exact hb c h)]
  have hn : lastN size (([] : List Str) ++ (a ++ (x ++ 26 :: y) :: b)) = a ++ (x ++ 26 :: y) :: b := by
    unfold lastN
    rw [Nat.sub_eq_zero_of_le (by simp; omega)]
    rfl
  show found (lastN size (([] : List Str) ++ (a ++ (x ++ 26 :: y) :: b))) = _
  rw [hn]
  clear hn hl
  obtain ⟨_, hz⟩ := ha
  induction a with
  | nil =>
    have hu : upTo (x ++ 26 :: y) = x := by rw [upTo_append hx.1]; simp [upTo, List.takeWhile]
    simp [found, hu]
  | cons c a ih =>
    rw [List.cons_append, found, if_neg (hz c (by simp))]
    rw [ih (by intro d hd; exact ‹NoNewline (c :: a)› d (by simp [hd])) (by intro d hd; exact hz d (by simp [hd]))]
    rfl

example : ((TextStore.mk 9 none).store [bs!"a", [b%'b', 26, b%'c'], bs!"d", bs!"e"]).Commands = [bs!"a", bs!"b"] := by rfl

/-! ### Files that are used on both kinds of systems -/

theorem encode_append (a b : Str) : encode (a ++ b) = encode a ++ encode b := by
  induction a with
  | nil => rfl
  | cons c a ih =>
    simp only [List.cons_append, encode]
    split <;> simp [ih]

theorem encode_plain : ∀ {a : Str}, b%'\n' ∉ a → encode a = a
  | [], _ => rfl
  | c :: a, h => by
    simp only [List.mem_cons, not_or] at h
    rw [encode, if_neg (fun e => h.1 e.symm), encode_plain h.2]

theorem encode_lines (l : List Str) (h : NoNewline l) : encode (l.flatMap (fun line => line ++ [b%'\n'])) = (l.map (· ++ [b%'\r'])).flatMap (fun line => line ++ [b%'\n']) := by
  induction l with
  | nil => rfl
  | cons c cs ih =>
    rw [List.flatMap_cons, encode_append, ih (fun d hd => h d (by simp [hd])), encode_append, encode_plain (h c (by simp))]
    simp [encode]

/-- **C110** A file stored on Windows and read elsewhere: every command has got a carriage return at its end. -/
theorem C110_elsewhere (s : TextStore) (cmds : List Str) (h : NoNewline cmds) (size : Nat) :
    (FileStore.mk size (s.store cmds).file).Commands = (lastN s.maxSize (s.Commands ++ cmds)).map (· ++ [b%'\r']) := by
  show getlines [] (encode _) = _
  have hn : NoNewline (lastN s.maxSize (s.Commands ++ cmds)) := lastN_noNewline (text_noNewline s) h
  rw [appendBounded_eq, encode_lines _ hn]
  have := getlines_render ((lastN s.maxSize (s.Commands ++ cmds)).map (· ++ [b%'\r'])) [] (by
    intro c hc
    obtain ⟨d, hd, rfl⟩ := List.mem_map.1 hc
    simp only [List.mem_append, List.mem_singleton, not_or]
    exact ⟨hn d hd, by decide⟩)
  simpa [getlines] using this

example : (FileStore.mk 9 ((TextStore.mk 9 none).store [bs!"a", bs!"b"]).file).Commands = [[b%'a', b%'\r'], [b%'b', b%'\r']] := by rfl

theorem decode_plain : ∀ {a : Str}, 26 ∉ a → b%'\r' ∉ a → decode a = a
  | [], _, _ => rfl
  | [c], h, _ => by simp only [List.mem_singleton] at h; rw [decode, if_neg (fun e => h e.symm)]
  | c :: d :: a, h, h' => by
    rw [decode, if_neg (fun e => h (by simp [e])), if_neg (fun e => h' (by simp [e.1])), decode_plain (fun e => h (List.mem_cons_of_mem _ e)) (fun e => h' (List.mem_cons_of_mem _ e))]

/-- **C110** A file stored elsewhere and read on Windows: commands without Ctrl-Z and carriage return are found as they were. -/
theorem C110_hither (s : FileStore) (cmds : List Str) (h : NoNewline cmds) (hz : ∀ c ∈ s.Commands ++ cmds, 26 ∉ c ∧ b%'\r' ∉ c) (size : Nat) :
    (TextStore.mk size (s.store cmds).file).Commands = lastN s.maxSize (s.Commands ++ cmds) := by
  rw [← store_commands s cmds h]
  show getlines [] (decode (s.newContents cmds)) = getlines [] (s.newContents cmds)
  have hb : ∀ b ∈ s.newContents cmds, b ≠ 26 ∧ b ≠ b%'\r' := by
    intro b hb
    unfold FileStore.newContents at hb
    rw [appendBounded_eq] at hb
    obtain ⟨c, hc, hb⟩ := List.mem_flatMap.1 hb
    have := hz c (List.mem_of_mem_drop hc)
    simp only [List.mem_append, List.mem_singleton] at hb
    rcases hb with hb | rfl
    · exact ⟨fun e => this.1 (e ▸ hb), fun e => this.2 (e ▸ hb)⟩
    · decide
  rw [decode_plain (fun e => (hb _ e).1 rfl) (fun e => (hb _ e).2 rfl)]

example : (TextStore.mk 9 ((FileStore.mk 9 none).store [bs!"a", [b%'b', b%'\r']]).file).Commands = [bs!"a", bs!"b"] ∧
    (TextStore.mk 9 ((FileStore.mk 9 none).store [bs!"a", bs!"b c"]).file).Commands = [bs!"a", bs!"b c"] := ⟨by rfl, by rfl⟩

end Verif.TextMode
