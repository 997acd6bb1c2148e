import Verif.Model.Storage
import Verif.Proofs.History

/-!
# Properties C30–C32: history storages
-/

namespace Verif.Props
open Verif.Storage

/-- Operations on a storage. -/
inductive StOp where
  | store (cmds : List Str)
  | clear
  /-- the storage object is destroyed and a new one is created on the same file -/
  | restart
  deriving DecidableEq, Repr

/-- Specification: everything stored since the last `Clear`, in order. -/
def storedSince : List StOp → List Str → List Str
  | [], acc => acc
  | .store cmds :: ops, acc => storedSince ops (acc ++ cmds)
  | .clear :: ops, _ => storedSince ops []
  | .restart :: ops, acc => storedSince ops acc

def Volatile.apply (s : Volatile) : StOp → Volatile
  | .store cmds => s.store cmds
  | .clear => s.clear
  | .restart => s          -- a volatile storage is not restarted; used for comparison only

def FileStore.apply (s : FileStore) : StOp → FileStore
  | .store cmds => s.store cmds
  | .clear => s.clear
  | .restart => { s with file := s.file }

theorem appendBounded_eq (n : Nat) (a b : List Str) : appendBounded n a b = lastN n (a ++ b) := by
  unfold appendBounded lastN
  simp only
  split
  · rfl
  · rename_i h
    rw [Nat.sub_eq_zero_of_le (by omega)]; rfl

theorem volatile_gen (n : Nat) (ops : List StOp) : ∀ (s : Volatile) (acc : List Str), s.maxSize = n →
    s.commands = lastN n acc → (ops.foldl Volatile.apply s).Commands = lastN n (storedSince ops acc) := by
  induction ops with
  | nil => intro s acc _ h; exact h
  | cons op ops ih =>
    intro s acc hn h
    cases op with
    | store cmds =>
      refine ih _ _ hn ?_
      show appendBounded s.maxSize s.commands cmds = _
      rw [appendBounded_eq, h, hn, lastN_append_lastN]
    | clear => exact ih _ _ hn (by simp [Volatile.apply, Volatile.clear, lastN])
    | restart => exact ih _ _ hn h

/-- **C30** After any sequence of `Store` and `Clear`, `Commands()` returns the last `size` commands stored since the last `Clear`, in order. -/
theorem C30_volatile_last_commands (size : Nat) (ops : List StOp) :
    (ops.foldl Volatile.apply (Volatile.init size)).Commands = lastN size (storedSince ops []) :=
  volatile_gen size ops _ _ rfl (by simp [Volatile.init, lastN])

example : ([StOp.store [bs!"x"], .clear, .store [bs!"a", bs!"b"], .store [], .store [bs!"c"]].foldl Volatile.apply (Volatile.init 2)).Commands
    = [bs!"b", bs!"c"] := by rfl

/-! ### File storage -/

/-- No element contains a newline. -/
def NoNewline (l : List Str) : Prop := ∀ c ∈ l, b%'\n' ∉ c

theorem getlines_line (c rest cur : Str) (h : b%'\n' ∉ c) :
    getlines cur (c ++ b%'\n' :: rest) = (cur ++ c) :: getlines [] rest := by
  induction c generalizing cur with
  | nil => simp [getlines]
  | cons x xs ih =>
    simp only [List.mem_cons, not_or] at h
    simp only [List.cons_append, getlines]
    rw [if_neg (by intro e; exact h.1 e.symm), ih _ h.2]
    simp

theorem getlines_render (l : List Str) (rest : Str) (h : NoNewline l) :
    getlines [] (l.flatMap (fun line => line ++ [b%'\n']) ++ rest) = l ++ getlines [] rest := by
  induction l with
  | nil => rfl
  | cons c cs ih =>
    have h1 := h c (by simp)
    have h2 : NoNewline cs := fun d hd => h d (by simp [hd])
    have := getlines_line c (cs.flatMap (fun line => line ++ [b%'\n']) ++ rest) [] h1
    simp only [List.flatMap_cons, List.append_assoc, List.cons_append, List.nil_append] at this ⊢
    rw [this]
    rw [ih h2]

theorem getlines_noNewline (s cur : Str) (hc : b%'\n' ∉ cur) : NoNewline (getlines cur s) := by
  induction s generalizing cur with
  | nil =>
    simp only [getlines]
    split
    · intro c hc; simp at hc
    · intro c hc'; simp at hc'; subst hc'; exact hc
  | cons x xs ih =>
    simp only [getlines]
    split
    · intro c hc'
      simp only [List.mem_cons] at hc'
      rcases hc' with rfl | hc'
      · exact hc
      · exact ih [] (by simp) c hc'
    · rename_i hx
      exact ih _ (by simp only [List.mem_append, List.mem_singleton, not_or]; exact ⟨hc, fun e => hx e.symm⟩)

theorem commands_noNewline (s : FileStore) : NoNewline s.Commands := by
  unfold FileStore.Commands
  split
  · intro c hc; simp at hc
  · exact getlines_noNewline _ _ (by simp)

theorem store_commands (s : FileStore) (cmds : List Str) (h : NoNewline cmds) :
    (s.store cmds).Commands = lastN s.maxSize (s.Commands ++ cmds) := by
  have hn : NoNewline (appendBounded s.maxSize s.Commands cmds) := by
    rw [appendBounded_eq]
    intro c hc
    have := List.mem_of_mem_drop hc
    simp only [List.mem_append] at this
    rcases this with h1 | h1
    · exact commands_noNewline s c h1
    · exact h c h1
  have := getlines_render _ [] hn
  simp only [List.append_nil, getlines, if_true] at this
  show getlines [] (s.newContents cmds) = _
  unfold FileStore.newContents
  rw [this, appendBounded_eq]

/-- All commands ever stored are free of newlines. -/
def OpsNoNewline (ops : List StOp) : Prop := ∀ cmds, .store cmds ∈ ops → NoNewline cmds

/-- **C31** For commands without newline characters, a file storage (starting without file) returns after any sequence of
    `Store`, `Clear` and restarts the same `Commands()` as a volatile storage of the same size. -/
theorem C31_file_like_volatile (size : Nat) (ops : List StOp) (h : OpsNoNewline ops) :
    (ops.foldl FileStore.apply ⟨size, none⟩).Commands = (ops.foldl Volatile.apply (Volatile.init size)).Commands := by
  have gen : ∀ (ops : List StOp), OpsNoNewline ops → ∀ (f : FileStore) (v : Volatile), f.maxSize = v.maxSize →
      f.Commands = v.commands →
      (ops.foldl FileStore.apply f).Commands = (ops.foldl Volatile.apply v).Commands := by
    intro ops
    induction ops with
    | nil => intro _ f v _ h; exact h
    | cons op ops ih =>
      intro ho f v hm hc
      have ho' : OpsNoNewline ops := fun cmds hcm => ho cmds (by simp [hcm])
      cases op with
      | store cmds =>
        refine ih ho' _ _ hm ?_
        show (f.store cmds).Commands = appendBounded v.maxSize v.commands cmds
        rw [store_commands f cmds (ho cmds (by simp)), appendBounded_eq, hc, hm]
      | clear => exact ih ho' _ _ hm (by simp [FileStore.apply, FileStore.clear, FileStore.Commands, getlines, Volatile.apply, Volatile.clear])
      | restart => exact ih ho' _ _ hm hc
  exact gen ops h _ _ rfl rfl

/-- **C31** Starting on an existing file with any contents, `Commands()` after one `Store` are the last `size` of the file's lines followed
    by the stored commands. -/
theorem C31_store_on_existing_file (s : FileStore) (cmds : List Str) (h : NoNewline cmds) :
    (s.store cmds).Commands = lastN s.maxSize (s.Commands ++ cmds) := store_commands s cmds h

/-- The restriction to commands without newline is needed. -/
example : ((FileStore.mk 5 none).store [[b%'a', b%'\n', b%'b']]).Commands = [bs!"a", bs!"b"] := by rfl

example : ([StOp.store [bs!"x"], .restart, .store [bs!"a", bs!"", bs!"c d"], .restart].foldl FileStore.apply ⟨3, none⟩).Commands
    = [bs!"a", bs!"", bs!"c d"] := by rfl

/-- A list that is a prefix of `l` except that its last element may be cut. -/
def CutPrefix (l r : List Str) : Prop :=
  ∃ k, r = l.take k ∨ ∃ c q, l[k]? = some c ∧ q <+: c ∧ r = l.take k ++ [q]

theorem getlines_plain (s cur : Str) (h : b%'\n' ∉ s) : getlines cur s = if cur ++ s = [] then [] else [cur ++ s] := by
  induction s generalizing cur with
  | nil => simp [getlines]
  | cons x xs ih =>
    simp only [List.mem_cons, not_or] at h
    simp only [getlines]
    rw [if_neg (by intro e; exact h.1 e.symm), ih _ h.2]
    simp

theorem cut_render (l : List Str) (h : NoNewline l) (n : Nat) :
    CutPrefix l (getlines [] ((l.flatMap (fun line => line ++ [b%'\n'])).take n)) := by
  induction l generalizing n with
  | nil => exact ⟨0, .inl (by simp [getlines])⟩
  | cons c cs ih =>
    have h1 := h c (by simp)
    have h2 : NoNewline cs := fun d hd => h d (by simp [hd])
    simp only [List.flatMap_cons]
    by_cases hn : n ≤ c.length
    · rw [List.append_assoc, List.take_append_of_le_length hn]
      have hno : b%'\n' ∉ c.take n := fun hm => h1 (List.mem_of_mem_take hm)
      rw [getlines_plain _ _ hno]
      simp only [List.nil_append]
      split
      · exact ⟨0, .inl rfl⟩
      · exact ⟨0, .inr ⟨c, c.take n, rfl, List.take_prefix _ _, rfl⟩⟩
    · have e : ((c ++ [b%'\n']) ++ cs.flatMap (fun line => line ++ [b%'\n'])).take n
          = c ++ b%'\n' :: (cs.flatMap (fun line => line ++ [b%'\n'])).take (n - (c.length + 1)) := by
        rw [List.take_append]
        rw [List.take_of_length_le (by simp; omega)]
        simp
      rw [e, getlines_line _ _ _ h1]
      obtain ⟨k, hk⟩ := ih h2 (n - (c.length + 1))
      refine ⟨k + 1, ?_⟩
      rcases hk with hk | ⟨d, q, hd, hq, hk⟩
      · left; simp [hk]
      · right; exact ⟨d, q, by simpa using hd, hq, by simp [hk]⟩

/-- **C32** (partial) If the process dies at any point while the history file is being rewritten, what is read later is the old command list or a prefix of
    the new command list whose last element may be cut. The stronger wish that no previously stored command is ever
    lost is refuted below. -/
theorem C32_crash_partial (s : FileStore) (cmds : List Str) (h : NoNewline cmds) (f : Option Str)
    (hf : f ∈ s.storeStates cmds) :
    (FileStore.mk s.maxSize f).Commands = s.Commands ∨
    CutPrefix (lastN s.maxSize (s.Commands ++ cmds)) (FileStore.mk s.maxSize f).Commands := by
  have hn : NoNewline (lastN s.maxSize (s.Commands ++ cmds)) := by
    intro c hc
    have := List.mem_of_mem_drop hc
    simp only [List.mem_append] at this
    rcases this with h1 | h1
    · exact commands_noNewline s c h1
    · exact h c h1
  simp only [FileStore.storeStates, List.mem_cons, List.mem_map] at hf
  rcases hf with rfl | ⟨n, _, rfl⟩
  · exact .inl rfl
  · right
    have := cut_render _ hn n
    rw [← appendBounded_eq] at this ⊢
    exact this

/-- **C32, stronger form, is false of the code**: a crash between the truncation and the first write loses every stored command. -/
theorem C32_refuted_no_loss : ∃ (s : FileStore) (cmds : List Str) (f : Option Str),
    f ∈ s.storeStates cmds ∧ s.Commands = [bs!"a", bs!"b"] ∧ (FileStore.mk s.maxSize f).Commands = [] :=
  ⟨⟨10, some bs!"a\nb\n"⟩, [bs!"c"], some [], by decide, by rfl, by rfl⟩

example : some bs!"a\nb" ∈ (FileStore.mk 10 (some bs!"a\nbcd\n")).storeStates [bs!"c"] := by decide

end Verif.Props
