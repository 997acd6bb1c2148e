import Verif.Props.Telnet
import Verif.Spec.TelnetKeys

set_option linter.unusedSimpArgs false

/-!
# Property C91: keys over telnet
-/

namespace Verif.Props
open Spec Processor
open Verif.Terminal (Term Key Symbol)
open Verif.Telnet (Rx Ev Tel Step)
open Spec.Telnet (Verb Item)

/-! ### The keys -/

theorem sendsT_keys {k : Key} {s : Str} (h : SendsT k s) : keysOf .s1 s = (.s1, [k]) := by
  cases h with
  | @ascii c hc =>
    simp only [PlainT, List.mem_cons, List.not_mem_nil, or_false, not_or] at hc
    obtain ⟨h4, h8, h12, h13, h27, h127, h255⟩ := hc
    simp [keysOf, Telnet.output, h4, h8, h12, h13, h27, h127, h255]
  | _ => rfl

theorem sendsT_all (l : List (Key × Str)) (h : ∀ x ∈ l, SendsT x.1 x.2) : keysOf .s1 (l.flatMap (·.2)) = (.s1, l.map (·.1)) := by
  induction l with
  | nil => rfl
  | cons x l ih =>
    rw [List.flatMap_cons, keysOf_append, sendsT_keys (h x (by simp)), ih (fun y hy => h y (by simp [hy]))]
    rfl

section
variable {σ τ : Type} (A : App σ τ)

/-- **C91** (part) A client presses any keys of the specification; the bytes they send arrive with any commands and negotiations before, between and after them, cut into packets in any way and interleaved
    in any way with the handling of the keys. Then the line editor is given exactly these keys, in order, each once (between them answers to negotiations are written), and the session ends up ready
    for the next key. Missing: keys without a meaning, the data byte 255, and negotiations about option 255 (refuted below and in C46). -/
theorem C91_keys_partial (fuel : Nat) (p : Proc σ τ) (l : List (Key × Str)) (hl : ∀ x ∈ l, SendsT x.1 x.2) (items : List Item) (hv : ∀ i ∈ items, i.Valid ∧ i.NotExtended)
    (hi : items.flatMap Item.text = l.flatMap (·.2)) (es : List Ev) (hp : packets es = items.flatMap Item.wire) (n : Nat) (hn : l.length ≤ n) :
    ∃ ops, opKeys ops = l.map (·.1) ∧ match runOps A fuel ops p with
      | .error f => Telnet.events A fuel (es ++ List.replicate n .task) ⟨Rx.init, .s1, [], p⟩ = .error f
      | .ok (p', some x) => ∃ t', Telnet.events A fuel (es ++ List.replicate n .task) ⟨Rx.init, .s1, [], p⟩ = .ok (t', some x) ∧ t'.proc = p'
      | .ok (p', none) => Telnet.events A fuel (es ++ List.replicate n .task) ⟨Rx.init, .s1, [], p⟩ = .ok (⟨Rx.init, .s1, [], p'⟩, none) := by
  have hpk : packets (es ++ List.replicate n .task) = items.flatMap Item.wire := by rw [packets_append, packets_tasks, hp, List.append_nil]
  obtain ⟨h1, h2, h3⟩ := trace_keys (es ++ List.replicate n .task) Rx.init .s1 []
  rw [hpk, rxRun_items items hv] at h1 h2 h3
  simp only [hi, sendsT_all l hl, List.nil_append] at h1 h2 h3
  have h4 : (trace (es ++ List.replicate n .task) Rx.init .s1 []).2.2.2 = [] := by
    rw [trace_append]
    refine trace_tasks n _ _ _ ?_
    obtain ⟨g1, _, _⟩ := trace_keys es Rx.init .s1 []
    rw [hp, rxRun_items items hv] at g1
    simp only [hi, sendsT_all l hl, List.nil_append] at g1
    have := congrArg List.length g1
    simp at this
    omega
  rw [h4, List.append_nil] at h1
  have hev := events_trace A fuel (es ++ List.replicate n .task) Rx.init .s1 [] p
  rw [h2, h3, h4] at hev
  exact ⟨_, h1, hev⟩

end

/-- Up, `x`, a negotiation, Left, Delete (in two packets), `a`, Enter. -/
example : ∃ (l : List (Key × Str)) (items : List Item), (∀ x ∈ l, SendsT x.1 x.2) ∧ l.map (·.1) = [.up, .ascii b%'x', .left, .canc, .ascii b%'a', .ret] ∧
    (∀ i ∈ items, i.Valid ∧ i.NotExtended) ∧ items.flatMap Item.text = l.flatMap (·.2) ∧
    packets [.packet (27 :: bs!"[Ax" ++ [255, 253, 5, 27, b%'[']), .task, .packet (bs!"D" ++ [27, b%'[', b%'3']), .packet (bs!"~a" ++ [13, 10])] = items.flatMap Item.wire := by
  refine ⟨[(.up, 27 :: bs!"[A"), (.ascii b%'x', bs!"x"), (.left, 27 :: bs!"[D"), (.canc, 27 :: bs!"[3~"), (.ascii b%'a', bs!"a"), (.ret, [13, 10])],
    (27 :: bs!"[Ax").map Item.data ++ [.option .do 5] ++ (27 :: bs!"[D").map Item.data ++ (27 :: bs!"[3~a").map Item.data ++ [.data 13, .data 10], ?_, rfl, ?_, rfl, rfl⟩
  · intro x hx
    simp only [List.mem_cons, List.not_mem_nil, or_false] at hx
    rcases hx with rfl | rfl | rfl | rfl | rfl | rfl
    · exact .up
    · exact .ascii (by simp [PlainT])
    · exact .left
    · exact .canc
    · exact .ascii (by simp [PlainT])
    · exact .enter10
  · intro i hi
    simp only [List.map_cons, List.map_nil, List.mem_append, List.mem_cons, List.not_mem_nil, or_false] at hi
    rcases hi with (((((rfl | rfl | rfl | rfl) | rfl) | (rfl | rfl | rfl)) | (rfl | rfl | rfl | rfl | rfl)) | (rfl | rfl)) <;> simp [Item.Valid, Item.NotExtended]

/-! ### Every byte sequence -/

/-- What has been received of a key, at each place of the decoder. -/
inductive Begun : Step → Str → Prop
  | none : Begun .s1 []
  | esc : Begun .s2 [27]
  | csi : Begun .s3 [27, 91]
  | more {c} : c ∉ ([65, 66, 67, 68, 70, 72] : Str) → Begun .s4 [27, 91, c]
  | cr : Begun .wait0 [13]

theorem begun_length {s : Step} {b : Str} (h : Begun s b) : b.length ≤ 3 := by cases h <;> simp

theorem begun_keys {s : Step} {b : Str} (h : Begun s b) : keysOf .s1 b = (s, []) := by
  cases h with
  | @more c hc =>
    simp only [List.mem_cons, List.not_mem_nil, or_false, not_or] at hc
    obtain ⟨h1, h2, h3, h4, h5, h6⟩ := hc
    simp [keysOf, Telnet.output, h1, h2, h3, h4, h5, h6]
  | _ => rfl

/-- A byte ends a key, or one more byte of a key has been received. -/
theorem begun_step {s : Step} {b : Str} (h : Begun s b) (c : Byte) :
    (∃ k, Telnet.output s c = (.s1, some k)) ∨ ∃ s', Telnet.output s c = (s', none) ∧ Begun s' (b ++ [c]) := by
  cases h with
  | none =>
    unfold Telnet.output
    simp only
    by_cases h1 : c = 255 ∨ c = 4
    · rw [if_pos h1]; exact .inl ⟨_, rfl⟩
    · rw [if_neg h1]
      by_cases h2 : c = 8 ∨ c = 127
      · rw [if_pos h2]; exact .inl ⟨_, rfl⟩
      · rw [if_neg h2]
        by_cases h3 : c = 12
        · rw [if_pos h3]; exact .inl ⟨_, rfl⟩
        · rw [if_neg h3]
          by_cases h4 : c = 27
          · rw [if_pos h4, h4]; exact .inr ⟨_, rfl, .esc⟩
          · rw [if_neg h4]
            by_cases h5 : c = 13
            · rw [if_pos h5, h5]; exact .inr ⟨_, rfl, .cr⟩
            · rw [if_neg h5]; exact .inl ⟨_, rfl⟩
  | esc =>
    unfold Telnet.output
    simp only
    by_cases h : c = 91
    · rw [if_pos h, h]; exact .inr ⟨_, rfl, .csi⟩
    · rw [if_neg h]; exact .inl ⟨_, rfl⟩
  | csi =>
    by_cases h : c ∈ ([65, 66, 67, 68, 70, 72] : Str)
    · left
      simp only [List.mem_cons, List.not_mem_nil, or_false] at h
      rcases h with rfl | rfl | rfl | rfl | rfl | rfl <;> exact ⟨_, rfl⟩
    · right
      refine ⟨.s4, ?_, .more h⟩
      simp only [List.mem_cons, List.not_mem_nil, or_false, not_or] at h
      obtain ⟨h1, h2, h3, h4, h5, h6⟩ := h
      simp [Telnet.output, h1, h2, h3, h4, h5, h6]
  | more _ => exact .inl ⟨_, rfl⟩
  | cr => exact .inl ⟨_, rfl⟩

theorem begun_chunks (bytes : Str) : ∀ s b, Begun s b → ∃ (l : List (Str × Key)) (s' : Step) (b' : Str), Begun s' b' ∧ b ++ bytes = l.flatMap (·.1) ++ b' ∧
    keysOf s bytes = (s', l.map (·.2)) ∧ ∀ x ∈ l, 1 ≤ x.1.length ∧ x.1.length ≤ 4 ∧ keysOf .s1 x.1 = (.s1, [x.2]) := by
  induction bytes with
  | nil => intro s b h; exact ⟨[], s, b, h, by simp, rfl, by simp⟩
  | cons c bytes ih =>
    intro s b h
    rcases begun_step h c with ⟨k, hk⟩ | ⟨t, hs, hb⟩
    · obtain ⟨l, s', b', h1, h2, h3, h4⟩ := ih .s1 [] .none
      refine ⟨(b ++ [c], k) :: l, s', b', h1, ?_, by simp [keysOf, hk, h3], ?_⟩
      · rw [List.flatMap_cons, List.append_assoc, ← h2]; simp
      · intro x hx
        rcases List.mem_cons.1 hx with rfl | hx
        · have := begun_length h
          exact ⟨by simp, by simp; omega, by rw [keysOf_append, begun_keys h]; simp [keysOf, hk]⟩
        · exact h4 x hx
    · obtain ⟨l, s', b', h1, h2, h3, h4⟩ := ih t (b ++ [c]) hb
      exact ⟨l, s', b', h1, by rw [← h2]; simp, by simp [keysOf, hs, h3], h4⟩

/-- **C91** Every sequence of data bytes whatsoever is cut into keys of one to four bytes, each decoded by itself, followed by at most three bytes of an unfinished key. -/
theorem C91_at_most_four_bytes (bytes : Str) : ∃ (l : List (Str × Key)) (rest : Str), bytes = l.flatMap (·.1) ++ rest ∧ rest.length ≤ 3 ∧
    (keysOf .s1 bytes).2 = l.map (·.2) ∧ (keysOf .s1 rest).2 = [] ∧ ∀ x ∈ l, 1 ≤ x.1.length ∧ x.1.length ≤ 4 ∧ (keysOf .s1 x.1).2 = [x.2] := by
  obtain ⟨l, s', b', h1, h2, h3, h4⟩ := begun_chunks bytes .s1 [] .none
  refine ⟨l, b', by simpa using h2, begun_length h1, by rw [h3], by rw [begun_keys h1], fun x hx => ?_⟩
  obtain ⟨a, b, c⟩ := h4 x hx
  exact ⟨a, b, by rw [c]⟩

example : (keysOf .s1 (bs!"a" ++ [27, 91, 66, 13, 9, 27, 91])).2 = [.ascii b%'a', .down, .ignored] := by rfl

/-- **C91** (part) Of the keys without a meaning, Alt with a character changes nothing. -/
theorem C91_alt_partial {σ τ : Type} (A : App σ τ) (fuel : Nat) (p : Proc σ τ) (c : Byte) (h : c ≠ 91) (hc : c ≠ 255) :
    Telnet.events A fuel [.packet [27, c], .task] ⟨Rx.init, .s1, [], p⟩ = .ok (⟨Rx.init, .s1, [], p⟩, none) := by
  have hd : rxRun Rx.init [27, c] = (Rx.init, ⟨[27, c], []⟩) := by
    have h0 : rxNext Rx.init 27 = (Rx.init, ⟨[27], []⟩) := by rfl
    have h1 : rxNext Rx.init c = (Rx.init, ⟨[c], []⟩) := by rw [show Rx.init = ⟨.data, false⟩ from rfl, rxNext_plain _ _ hc]; rfl
    simp only [rxRun, h0, h1, List.append_nil, List.cons_append, List.nil_append]
  simp only [Telnet.events, Telnet.event, received_after, after, hd, keysOf, bind, Except.bind]
  simp [Telnet.output, h, keypressed, Terminal.keypressed, newCommand, bind, Except.bind, put_nil]

example : ∃ c : Byte, c ≠ 91 ∧ c ≠ 255 := ⟨b%'f', by decide, by decide⟩

/-- **C91** Refuted: Page Up, which has no meaning, deletes the character at the cursor (any key that sends `ESC [`, a character and `~` is taken for Delete). -/
theorem C91_page_up_refuted : Meaningless (27 :: bs!"[5~") ∧
    (Telnet.events Sample.app 5 (.packet (bs!"any" ++ 27 :: bs!"[H" ++ 27 :: bs!"[5~") :: List.replicate 5 .task) ⟨Rx.init, .s1, [], Sample.proc Sample.world []⟩).map
      (fun r => (r.1.proc.term.line, r.1.queue, r.2)) = .ok (bs!"ny", [], none) := ⟨.pageUp, rfl⟩

/-- **C91** Refuted: the data byte 255 (a letter in many 8-bit character sets, sent as IAC IAC) ends the session. -/
theorem C91_byte_255_refuted :
    (Telnet.events Sample.app 5 (.packet (Item.data 255).wire :: List.replicate 1 .task) ⟨Rx.init, .s1, [], Sample.proc Sample.world []⟩).map
      (fun r => (r.1.proc.w.exit, r.1.queue, r.2)) = .ok (true, [], none) := rfl

end Verif.Props
