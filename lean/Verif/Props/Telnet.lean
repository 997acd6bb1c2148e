import Verif.Model.Telnet
import Verif.Spec.Telnet
import Verif.Props.Keyboard
import Verif.Props.Life

set_option linter.unusedSimpArgs false

/-!
# Properties C46-C50: telnet
-/

namespace Verif.Props
open Spec Processor
open Verif.Terminal (Term Key Symbol)
open Verif.Telnet (Rx Rcv State consume command onData onPackets encode Ev Tel Step)
open Spec.Telnet (Verb Item quoted Answers Answered supported view dropCr)

/-! ### The receiver -/

/-- `consume` as a total function. -/
def rxNext (r : Rx) (c : Byte) : Rx × Rcv :=
  match consume r c with
  | .ok x => x
  | .error _ => (r, ⟨[], []⟩)

theorem command_ok (s : State) (c : Byte) (h : c ≠ 255) : ∃ s', command s c = .ok s' := by
  unfold command
  repeat' split
  all_goals exact ⟨_, rfl⟩

theorem consume_ok (r : Rx) (c : Byte) : consume r c = .ok (rxNext r c) := by
  have : ∃ x, consume r c = .ok x := by
    unfold consume
    split
    · split
      · exact ⟨_, rfl⟩
      · rename_i h
        obtain ⟨s', hs⟩ := command_ok r.state c h
        rw [hs]
        exact ⟨_, rfl⟩
    · split <;> exact ⟨_, rfl⟩
  obtain ⟨x, hx⟩ := this
  rw [rxNext, hx]

/-- What a stream leads to. -/
def rxRun (r : Rx) : Str → Rx × Rcv
  | [] => (r, ⟨[], []⟩)
  | c :: rest => ((rxRun (rxNext r c).1 rest).1,
      ⟨(rxNext r c).2.data ++ (rxRun (rxNext r c).1 rest).2.data, (rxNext r c).2.answer ++ (rxRun (rxNext r c).1 rest).2.answer⟩)

theorem onData_run (r : Rx) (s : Str) : onData r s = .ok (rxRun r s) := by
  induction s generalizing r with
  | nil => rfl
  | cons c s ih => simp only [onData, consume_ok, bind, Except.bind, ih, rxRun]

theorem rxRun_append (r : Rx) (s t : Str) : rxRun r (s ++ t) = ((rxRun (rxRun r s).1 t).1,
    ⟨(rxRun r s).2.data ++ (rxRun (rxRun r s).1 t).2.data, (rxRun r s).2.answer ++ (rxRun (rxRun r s).1 t).2.answer⟩) := by
  induction s generalizing r with
  | nil => rfl
  | cons c s ih => simp only [List.cons_append, rxRun, ih, List.append_assoc]

theorem onPackets_run (r : Rx) (ps : List Str) : onPackets r ps = .ok (rxRun r ps.flatten) := by
  induction ps generalizing r with
  | nil => rfl
  | cons p ps ih => simp only [onPackets, onData_run, bind, Except.bind, ih, List.flatten_cons, rxRun_append]

/-! ### C46 -/

/-- **C46** What is passed on, and what is answered, does not depend on how the stream is cut into packets. -/
theorem C46_packets (r : Rx) (ps qs : List Str) (h : ps.flatten = qs.flatten) : onPackets r ps = onPackets r qs := by
  rw [onPackets_run, onPackets_run, h]

theorem rxNext_plain (s : State) (c : Byte) (h : c ≠ 255) : rxNext ⟨s, false⟩ c = (⟨(Telnet.data s c).1, false⟩, (Telnet.data s c).2) := by
  simp [rxNext, consume, h]

theorem rxRun_quoted (s : State) (c : Byte) : rxRun ⟨s, false⟩ (quoted [c]) = (⟨(Telnet.data s c).1, false⟩, (Telnet.data s c).2) := by
  by_cases h : c = 255
  · subst h
    simp [quoted, rxRun, rxNext, consume]
  · simp [quoted, h, rxRun, rxNext_plain]

theorem rxRun_sub (body : Str) : rxRun ⟨.sub, false⟩ (quoted body) = (⟨.sub, false⟩, ⟨[], []⟩) := by
  induction body with
  | nil => rfl
  | cons c body ih =>
    have : quoted (c :: body) = quoted [c] ++ quoted body := by simp [quoted]
    rw [this, rxRun_append, rxRun_quoted]
    simp [Telnet.data, ih]

/-- What the code writes on receiving an item. -/
def answer : Item → Str
  | .option .will x => Telnet.rxWill x
  | .option .do x => Telnet.rxDo x
  | _ => []

theorem rxRun_item (i : Item) (h : i.Valid) (hx : i.NotExtended) : rxRun Rx.init i.wire = (Rx.init, ⟨i.text, answer i⟩) := by
  cases i with
  | data c => exact rxRun_quoted .data c
  | command c =>
    obtain ⟨h1, h2⟩ := h
    have h3 : c ≠ 255 := by rintro rfl; simp at h2
    have h4 : c ≠ 240 := by rintro rfl; simp at h1
    simp [Item.wire, rxRun, rxNext, consume, h3, command, h4, h1, h2, Rx.init, Telnet.Rx.init, Item.text, answer, bind, Except.bind]
  | option v x =>
    have h1 : ∃ s, rxRun Rx.init [255, v.code] = (⟨s, false⟩, ⟨[], []⟩) ∧ Telnet.data s x = (.data, ⟨[], answer (.option v x)⟩) := by
      cases v
      · exact ⟨.waitWill, rfl, rfl⟩
      · exact ⟨.waitWont, rfl, rfl⟩
      · exact ⟨.waitDo, rfl, rfl⟩
      · exact ⟨.waitDont, rfl, rfl⟩
    obtain ⟨s, h1, h2⟩ := h1
    show rxRun Rx.init ([255, v.code] ++ [x]) = _
    rw [rxRun_append, h1]
    simp [rxRun, rxNext_plain _ _ (show x ≠ 255 from hx), h2, Telnet.Rx.init, Item.text]
  | sub body =>
    show rxRun Rx.init ([255, 250] ++ (quoted body ++ [255, 240])) = _
    rw [rxRun_append, show rxRun Rx.init [255, 250] = (⟨.sub, false⟩, ⟨[], []⟩) from rfl, rxRun_append, rxRun_sub]
    rfl

theorem rxRun_items (items : List Item) (h : ∀ i ∈ items, i.Valid ∧ i.NotExtended) :
    rxRun Rx.init (items.flatMap Item.wire) = (Rx.init, ⟨items.flatMap Item.text, items.flatMap answer⟩) := by
  induction items with
  | nil => rfl
  | cons i items ih =>
    rw [List.flatMap_cons, rxRun_append, rxRun_item i (h i (by simp)).1 (h i (by simp)).2, ih (fun j hj => h j (by simp [hj]))]
    simp

/-- **C46** (part) For every telnet stream (data bytes, commands, option negotiations and sub-negotiations in any order), cut into packets in any way: exactly the data bytes are passed to the decoder of
    keys, in order. Missing: negotiations about option 255 (refuted below). -/
theorem C46_data_partial (items : List Item) (hv : ∀ i ∈ items, i.Valid ∧ i.NotExtended) (ps : List Str) (h : ps.flatten = items.flatMap Item.wire) :
    (onPackets Rx.init ps).map (fun r => (r.1, r.2.data)) = .ok (Rx.init, items.flatMap Item.text) := by
  rw [onPackets_run, h, rxRun_items items hv]
  rfl

/-- **C46** The same when the last item has not been received completely. -/
theorem C46_unfinished_partial (items : List Item) (hv : ∀ i ∈ items, i.Valid ∧ i.NotExtended) (last : Item) (hl : last.Valid ∧ last.NotExtended) (pre rest : Str) (hp : last.wire = pre ++ rest) (hr : rest ≠ [])
    (ps : List Str) (h : ps.flatten = items.flatMap Item.wire ++ pre) : (onPackets Rx.init ps).map (fun r => r.2.data) = .ok (items.flatMap Item.text) := by
  rw [onPackets_run, h, rxRun_append, rxRun_items items hv]
  simp only [Except.map, Except.ok.injEq]
  have h1 : (rxRun Rx.init pre).2.data = [] := by
    have h2 := rxRun_item last hl.1 hl.2
    rw [hp, rxRun_append] at h2
    have h3 := congrArg (fun r => r.2.data) h2
    simp only at h3
    cases last with
    | data c =>
      have hc : (rxRun Rx.init pre).2.data <+: [c] := ⟨_, h3⟩
      simp only [Item.wire, quoted, List.flatMap_cons, List.flatMap_nil, List.append_nil] at hp
      split at hp
      · match pre, hp with
        | [], _ => rfl
        | [_], hp =>
          simp only [List.cons_append, List.nil_append, List.cons.injEq] at hp
          rw [← hp.1]; rfl
        | [_, _], hp => simp at hp; exact absurd hp.2.2 hr
        | _ :: _ :: _ :: _, hp => simp at hp
      · match pre, hp with
        | [], _ => rfl
        | [_], hp => simp at hp; exact absurd hp.2 hr
        | _ :: _ :: _, hp => simp at hp
    | _ => simp only [Item.text, List.append_eq_nil_iff] at h3; exact h3.1
  rw [h1, List.append_nil]

/-- **C46** On no stream, well formed or not, does the receiver fail, and it never invents or reorders data: what it passes on is a subsequence of the bytes received. -/
theorem C46_every_stream (r : Rx) (ps : List Str) : ∃ r' d, (onPackets r ps).map (fun x => (x.1, x.2.data)) = .ok (r', d) ∧ d.Sublist ps.flatten := by
  rw [onPackets_run]
  refine ⟨_, _, rfl, ?_⟩
  generalize ps.flatten = s
  induction s generalizing r with
  | nil => exact .refl _
  | cons c s ih =>
    have h1 : (rxNext r c).2.data.Sublist [c] := by
      have hd : ∀ s : State, (Telnet.data s c).2.data.Sublist [c] := by intro s; cases s <;> simp [Telnet.data]
      unfold rxNext consume
      split
      · rename_i h
        split at h
        · split at h
          · cases h; exact hd _
          · simp only [bind, Except.bind] at h
            split at h
            · cases h
            · cases h; simp
        · split at h <;> cases h
          · simp
          · exact hd _
      · simp
    exact List.Sublist.append h1 (ih _)

theorem rx_data (r : Rx) (s : Str) : (rxRun r s).2.data.Sublist s := by
  obtain ⟨r', d, h, hd⟩ := C46_every_stream r [s]
  rw [onPackets_run] at h
  simp only [List.flatten_cons, List.flatten_nil, List.append_nil, Except.map, Except.ok.injEq, Prod.mk.injEq] at h hd
  rw [h.2]; exact hd

/-- **C46** Whatever a client has sent, well formed or not, a NUL and a command such as NOP bring the receiver back to its initial state: of the telnet stream that follows exactly the data bytes are passed to the decoder
    of keys. -/
theorem C46_resync_partial (junk : Str) (c : Byte) (hc : 241 ≤ c.toNat ∧ c.toNat ≤ 249) (items : List Item) (hv : ∀ i ∈ items, i.Valid ∧ i.NotExtended) (ps : List Str)
    (h : ps.flatten = junk ++ [0, 255, c] ++ items.flatMap Item.wire) :
    ∃ d : Str, d.Sublist (junk ++ [0]) ∧ (onPackets Rx.init ps).map (fun r => (r.1, r.2.data)) = .ok (Rx.init, d ++ items.flatMap Item.text) := by
  have key : ∀ r : Rx, (rxRun r [255, c]).1 = Rx.init ∧ (rxRun r [255, c]).2.data = [] ∨ r.escape = true := by
    intro r
    cases he : r.escape with
    | true => exact .inr rfl
    | false =>
      left
      have c1 : c ≠ 240 := by rintro rfl; simp at hc
      have c2 : c ≠ 255 := by rintro rfl; simp at hc
      simp [rxRun, rxNext, consume, he, command, c1, c2, hc, bind, Except.bind, Rx.init]
  have esc : (rxRun (rxRun Rx.init junk).1 [0]).1.escape = false := by
    generalize (rxRun Rx.init junk).1 = r
    cases he : r.escape <;> simp [rxRun, rxNext, consume, he, command, bind, Except.bind]
  have e : junk ++ [0, 255, c] ++ items.flatMap Item.wire = (junk ++ [0]) ++ ([255, c] ++ items.flatMap Item.wire) := by simp
  refine ⟨(rxRun Rx.init (junk ++ [0])).2.data, rx_data _ _, ?_⟩
  rw [onPackets_run, h, e, rxRun_append]
  have esc' : (rxRun Rx.init (junk ++ [0])).1.escape = false := by rw [rxRun_append]; exact esc
  generalize (rxRun Rx.init (junk ++ [0])) = q at esc'
  rcases key q.1 with ⟨k1, k2⟩ | k
  · rw [rxRun_append, k1, k2, rxRun_items items hv]; simp [Except.map]
  · rw [esc'] at k; cases k

/-- In the middle of a sub-negotiation. -/
example : (onPackets Rx.init [[255, 250, 31, 0], [0, 255, 241, b%'a']]).map (fun r => (r.1, r.2.data)) = .ok (Rx.init, bs!"a") := by rfl

/-- **C46** Refuted: after a negotiation about option 255 a data byte is taken for a command, and the one after it for the option. -/
theorem C46_option_255_refuted : ∃ items : List Item, (∀ i ∈ items, i.Valid) ∧ items.flatMap Item.text = bs!"abc" ∧
    (onPackets Rx.init [items.flatMap Item.wire]).map (fun r => (r.2.data, r.2.answer)) = .ok (bs!"c", [255, 254, b%'b']) :=
  ⟨[.option .will 255, .data b%'a', .data b%'b', .data b%'c'], by simp [Item.Valid], rfl, rfl⟩

/-- A line with an empty negotiation in it, a doubled 255, a sub-negotiation with the bytes of a command in it. -/
def sampleItems : List Item := [.data b%'a', .option .do 24, .data 255, .sub [1, 255, 240, 7], .command 241, .option .will 3, .data b%'b']
example : (onPackets Rx.init [sampleItems.flatMap Item.wire |>.take 4, sampleItems.flatMap Item.wire |>.drop 4]).map (·.2) =
    .ok ⟨[b%'a', 255, b%'b'], [255, 252, 24, 255, 251, 3]⟩ := by rfl

/-! ### C47 -/

/-- **C47** (part) Over any telnet stream, each WILL and each DO is answered by one command about the same option, a refusal unless the option is supported, in the order of the requests; nothing else
    (in particular WONT and DONT) is answered. The bytes sent to the client are these, provided that no request is about option 10. Missing: option 10 (refuted below), option 255 (see C46). -/
theorem C47_answers_partial (items : List Item) (hv : ∀ i ∈ items, i.Valid ∧ i.NotExtended) (ps : List Str) (h : ps.flatten = items.flatMap Item.wire) :
    ∃ answers : List Str, Answered (items.filterMap Item.request) answers ∧
      (onPackets Rx.init ps).map (fun r => r.2.answer) = .ok answers.flatten ∧
      ((∀ r ∈ items.filterMap Item.request, r.2 ≠ 10) → encode answers.flatten = answers.flatten) := by
  have henc : ∀ s : Str, (10 : Byte) ∉ s → encode s = s := by
    intro s
    induction s with
    | nil => intro _; rfl
    | cons c s ih =>
      intro hm
      have h1 : c ≠ b%'\n' := fun e => hm (by simp [e])
      rw [encode, if_neg h1, ih (fun hm' => hm (by simp [hm']))]
  have hno : ∀ (rs : List (Verb × Byte)) (as : List Str), Answered rs as → (∀ r ∈ rs, r.2 ≠ 10) → (10 : Byte) ∉ as.flatten := by
    intro rs as hf
    induction hf with
    | nil => intro _ hm; simp at hm
    | cons ha _ ih =>
      rename_i r b rs bs _
      intro hr hm
      rw [List.flatten_cons, List.mem_append] at hm
      rcases hm with hm | hm
      · obtain ⟨v, rfl, _⟩ := ha
        simp only [List.mem_cons, List.not_mem_nil, or_false] at hm
        rcases hm with hm | hm | hm
        · exact absurd hm (by decide)
        · cases v <;> exact absurd hm (by decide)
        · exact hr r (by simp) hm.symm
      · exact ih (fun r' hr' => hr r' (by simp [hr'])) hm
  have hex : ∃ answers : List Str, Answered (items.filterMap Item.request) answers ∧ items.flatMap answer = answers.flatten := by
    clear h hv
    induction items with
    | nil => exact ⟨[], .nil, rfl⟩
    | cons i items ih =>
      obtain ⟨as, h1, h2⟩ := ih
      rw [List.flatMap_cons, h2]
      have hw : ∀ x, Answers (.will, x) (Telnet.rxWill x) := by
        intro x
        unfold Telnet.rxWill
        split
        · rename_i hx; subst hx; exact ⟨.will, rfl, fun hn => absurd (by simp [supported]) hn⟩
        · split
          · rename_i hx; subst hx; exact ⟨.do, rfl, fun hn => absurd (by simp [supported]) hn⟩
          · exact ⟨.dont, rfl, fun _ => rfl⟩
      have hd : ∀ x, Answers (.do, x) (Telnet.rxDo x) := by
        intro x
        unfold Telnet.rxDo
        split
        · rename_i hx; subst hx; exact ⟨.do, rfl, fun hn => absurd (by simp [supported]) hn⟩
        · split
          · rename_i hx; subst hx; exact ⟨.will, rfl, fun hn => absurd (by simp [supported]) hn⟩
          · exact ⟨.wont, rfl, fun _ => rfl⟩
      cases i with
      | data c => exact ⟨as, h1, rfl⟩
      | command c => exact ⟨as, h1, rfl⟩
      | sub b => exact ⟨as, h1, rfl⟩
      | option v x =>
        cases v with
        | will => exact ⟨Telnet.rxWill x :: as, .cons (hw x) h1, rfl⟩
        | «do» => exact ⟨Telnet.rxDo x :: as, .cons (hd x) h1, rfl⟩
        | wont => exact ⟨as, h1, rfl⟩
        | dont => exact ⟨as, h1, rfl⟩
  obtain ⟨as, h1, h2⟩ := hex
  refine ⟨as, h1, ?_, fun hr => henc _ (hno _ _ h1 hr)⟩
  rw [onPackets_run, h, rxRun_items items hv]
  simp only [Except.map, h2]

/-- **C47** Refuted: the refusal of option 10 is four bytes, and a client does not read it as a command about option 10. -/
theorem C47_option_10_refuted : ∃ (items : List Item), (∀ i ∈ items, i.Valid) ∧ items.filterMap Item.request = [(.will, 10)] ∧
    (onPackets Rx.init [items.flatMap Item.wire]).map (fun r => encode r.2.answer) = .ok [255, 254, 13, 10] ∧
    [255, 254, 13, 10] = (Item.option .dont 13).wire ++ (Item.data 10).wire :=
  ⟨[.option .will 10], by simp [Item.Valid], rfl, rfl, rfl⟩

/-- The bytes that an endpoint sends in answer to bytes received. -/
def endpoint (s : Str) : Except Fault Str := (onData Rx.init s).map (fun r => encode r.2.answer)

/-- Two such endpoints: the bytes travelling after `n` answers. -/
def bounce : Nat → Str → Except Fault Str
  | 0, s => .ok s
  | n + 1, s => (bounce n s).bind endpoint

/-- **C47** A refusal is not answered. -/
theorem C47_refusal_not_answered (v : Verb) (x : Byte) (h : v = .wont ∨ v = .dont) : endpoint (Item.option v x).wire = .ok [] := by
  by_cases hx : x = 255
  · subst hx; rcases h with rfl | rfl <;> rfl
  · rw [endpoint, onData_run, rxRun_item (.option v x) trivial hx]
    rcases h with rfl | rfl <;> rfl

/-! ### C69 -/

/-- **C69** (part) A request about an option other than 1 and 3 leads to at most two messages between two such endpoints. Missing: options 1 and 3 (refuted below). -/
theorem C69_requests_end_partial (v : Verb) (x : Byte) (h1 : x ≠ 1) (h3 : x ≠ 3) : bounce 3 (Item.option v x).wire = .ok [] := by
  by_cases h255 : x = 255
  · subst h255; cases v <;> rfl
  by_cases h10 : x = 10
  · subst h10; cases v <;> rfl
  have he : ∀ v : Verb, endpoint [255, v.code, x] = .ok (encode (answer (.option v x))) := by
    intro v
    rw [endpoint, onData_run, show [255, v.code, x] = (Item.option v x).wire from rfl, rxRun_item (.option v x) trivial h255]
    rfl
  have he' : ∀ v : Verb, encode [255, v.code, x] = [255, v.code, x] := by
    intro v
    simp [encode, h10]
    cases v <;> simp [Verb.code]
  have hnil : endpoint [] = .ok [] := rfl
  simp only [bounce, Except.bind, Item.wire, he]
  cases v with
  | wont => simp only [answer, encode, hnil]
  | dont => simp only [answer, encode, hnil]
  | will =>
    by_cases h31 : x = 31
    · subst h31; rfl
    · simp only [answer, Telnet.rxWill, h3, h31, if_false, Telnet.iacCmd]
      rw [show (254 : Byte) = Verb.dont.code from rfl, he', he]
      simp only [answer, encode, hnil]
  | «do» =>
    simp only [answer, Telnet.rxDo, h1, h3, if_false, Telnet.iacCmd]
    rw [show (252 : Byte) = Verb.wont.code from rfl, he', he]
    simp only [answer, encode, hnil]

/-- **C69** Refuted: requests for the supported options 1 and 3 travel between two such endpoints for ever. -/
theorem C69_loops_refuted (n : Nat) : bounce n (Item.option .do 1).wire = .ok (Item.option .do 1).wire ∧ bounce n (Item.option .will 3).wire = .ok (Item.option .will 3).wire := by
  induction n with
  | zero => exact ⟨rfl, rfl⟩
  | succ n ih => rw [bounce, bounce, ih.1, ih.2]; exact ⟨rfl, rfl⟩

/-! ### C48 -/

/-- **C48** A CR is inserted before each LF and nothing else is changed. -/
theorem C48_encode (s : Str) : encode s = s.flatMap (fun c => if c = b%'\n' then bs!"\r\n" else [c]) := by
  induction s with
  | nil => rfl
  | cons c s ih => rw [encode, List.flatMap_cons, ← ih]; split <;> simp_all

/-- **C48** The encoding does not depend on how the text is cut into writes. -/
theorem C48_cuts (ws : List Str) : (ws.map encode).flatten = encode ws.flatten := by
  induction ws with
  | nil => rfl
  | cons a ws ih => rw [List.map_cons, List.flatten_cons, ih, List.flatten_cons, C48_encode, C48_encode, C48_encode, List.flatMap_append]

/-- **C48** The text can be recovered. -/
theorem C48_recovered (s : Str) : dropCr (encode s) = s := by
  have haux : ∀ (s : Str), s.head? ≠ some 10 → ∀ t, s = encode t → dropCr (13 :: s) = 13 :: dropCr s := by
    intro s hs t _
    match s with
    | [] => rfl
    | c :: s =>
      have : c ≠ 10 := by simpa using hs
      rw [dropCr]
      intro r _ h
      simp only [List.cons.injEq] at h
      exact this h.1
  have hhead : ∀ t : Str, (encode t).head? ≠ some 10 := by
    intro t
    cases t with
    | nil => simp [encode]
    | cons c t =>
      rw [encode]
      split
      · simp
      · rename_i h; simpa using h
  induction s with
  | nil => rfl
  | cons c s ih =>
    rw [encode]
    split
    · rename_i h; subst h
      rw [dropCr, ih]
    · rename_i h
      by_cases hc : c = 13
      · subst hc
        rw [haux _ (hhead s) s rfl, ih]
      · rw [dropCr, ih]
        intro r h' _
        exact hc h'

theorem C48_injective (s t : Str) (h : encode s = encode t) : s = t := by rw [← C48_recovered s, h, C48_recovered]

/-- **C48** (part) A client that treats the bytes as telnet prescribes shows the text, if there is no byte 255 in it and no CR NUL. Missing: texts with byte 255 (refuted below). -/
theorem C48_client_sees_partial (s : Str) (h1 : (255 : Byte) ∉ s) (h2 : ¬ [13, 0] <:+: s) : view (encode s) = s := by
  have hhead : ∀ t : Str, (encode t).head? ≠ some 10 := by
    intro t
    cases t with
    | nil => simp [encode]
    | cons c t =>
      rw [encode]
      split
      · simp
      · rename_i h; simpa using h
  have hhead0 : ∀ t : Str, (encode t).head? = some 0 → t.head? = some 0 := by
    intro t
    cases t with
    | nil => simp [encode]
    | cons c t =>
      rw [encode]
      split
      · simp
      · simp
  induction s with
  | nil => rfl
  | cons c s ih =>
    have hc : c ≠ 255 := fun e => h1 (by simp [e])
    have ih := ih (fun hm => h1 (by simp [hm])) (fun hi => h2 (hi.trans (List.suffix_cons c s).isInfix))
    rw [encode]
    split
    · rename_i h; subst h
      rw [view, ih]
    · by_cases h13 : c = 13
      · subst h13
        cases he : encode s with
        | nil => rw [he] at ih; rw [view, ih] <;> simp
        | cons d r =>
          have hd : d ≠ 10 := by have := hhead s; rw [he] at this; simpa using this
          have hd0 : d ≠ 0 := by
            rintro rfl
            have := hhead0 s (by rw [he]; rfl)
            cases s with
            | nil => simp at this
            | cons e s =>
              simp at this; subst this
              exact h2 (List.IsPrefix.isInfix ⟨s, rfl⟩)
          rw [he] at ih
          rw [view, ih]
          · simp
          · simp
          · simp
          · intro r' _ h'; simp at h'; exact hd h'.1
          · intro r' _ h'; simp at h'; exact hd0 h'.1
      · rw [view, ih]
        · intro _ h' _; exact hc h'
        · intro _ _ h' _; exact hc h'
        · intro h' _; exact hc h'
        · intro _ h' _; exact h13 h'
        · intro _ h' _; exact h13 h'

theorem view_plain (c : Byte) (t : Str) (h1 : c ≠ 255) (h2 : c ≠ 13) : view (c :: t) = c :: view t := by
  rw [view]
  · rintro r rfl _; exact h1 rfl
  · rintro x r rfl _; exact h1 rfl
  · rintro rfl _; exact h1 rfl
  · rintro r rfl _; exact h2 rfl
  · rintro r rfl _; exact h2 rfl

theorem view_cr (t : Str) (h1 : t.head? ≠ some 10) (h2 : t.head? ≠ some 0) : view (13 :: t) = 13 :: view t := by
  rw [view]
  · rintro r h _; cases h
  · rintro x r h _; cases h
  · rintro h _; cases h
  · rintro r _ rfl; exact h1 rfl
  · rintro r _ rfl; exact h2 rfl

/-- What is shown is no longer than the text, and as long as it only if there is no byte 255 and no CR NUL in it. -/
theorem view_length (n : Nat) : ∀ s : Str, s.length ≤ n → (view (encode s)).length ≤ s.length ∧ ((view (encode s)).length = s.length → (255 : Byte) ∉ s ∧ ¬ [13, 0] <:+: s) := by
  have hhead : ∀ t : Str, (encode t).head? ≠ some 10 := by
    intro t
    cases t with
    | nil => simp [encode]
    | cons c t =>
      rw [encode]
      split
      · simp
      · rename_i h; simpa using h
  induction n with
  | zero =>
    intro s hs
    have : s = [] := List.length_eq_zero_iff.1 (by omega)
    subst this
    exact ⟨by simp [encode, view], fun _ => ⟨by simp, by simp⟩⟩
  | succ n ih =>
    intro s hs
    match s with
    | [] => exact ⟨by simp [encode, view], fun _ => ⟨by simp, by simp⟩⟩
    | c :: t =>
      simp only [List.length_cons] at hs
      have iht := ih t (by omega)
      by_cases h10 : c = b%'\n'
      · subst h10
        rw [encode, if_pos rfl]
        have e : view (13 :: 10 :: encode t) = 10 :: view (encode t) := by rw [view]
        rw [e]
        simp only [List.length_cons]
        refine ⟨by omega, fun h => ?_⟩
        obtain ⟨a, b⟩ := iht.2 (by omega)
        refine ⟨by simp [a], ?_⟩
        rw [List.infix_cons_iff]
        rintro (h | h)
        · simp at h
        · exact b h
      · rw [encode, if_neg h10]
        by_cases h255 : c = 255
        · subst h255
          have hlt : (view (255 :: encode t)).length < (255 :: t).length := by
            match t with
            | [] => simp [encode, view]
            | d :: u =>
              have ihu := (ih u (by simp only [List.length_cons] at hs; omega)).1
              by_cases hd : d = b%'\n'
              · subst hd
                rw [encode, if_pos rfl]
                have e : view (255 :: 13 :: 10 :: encode u) = view (10 :: encode u) := by
                  rw [view]
                  simp
                rw [e, view_plain _ _ (by decide) (by decide)]
                simp only [List.length_cons]
                omega
              · rw [encode, if_neg hd]
                by_cases hd5 : d = 255
                · subst hd5
                  rw [view]
                  simp only [List.length_cons]
                  omega
                · rw [view]
                  · simp only [List.length_cons]
                    omega
                  · exact hd5
          exact ⟨by omega, fun h => by omega⟩
        · by_cases h13 : c = 13
          · subst h13
            match t with
            | [] => exact ⟨by simp [encode, view], fun _ => ⟨by simp, by simp [List.infix_cons_iff]⟩⟩
            | d :: u =>
              by_cases h0 : d = 0
              · subst h0
                have ihu := (ih u (by simp only [List.length_cons] at hs; omega)).1
                rw [encode, if_neg (by decide)]
                have e : view (13 :: 0 :: encode u) = 13 :: view (encode u) := by rw [view]
                rw [e]
                simp only [List.length_cons]
                exact ⟨by omega, fun h => by omega⟩
              · have hne : (encode (d :: u)).head? ≠ some 0 := by
                  rw [encode]
                  split
                  · simp
                  · simpa using h0
                rw [view_cr _ (hhead _) hne]
                simp only [List.length_cons] at iht ⊢
                refine ⟨by omega, fun h => ?_⟩
                obtain ⟨a, b⟩ := iht.2 (by omega)
                refine ⟨by simp at a ⊢; exact a, ?_⟩
                rw [List.infix_cons_iff]
                rintro (h | h)
                · simp only [List.cons_prefix_cons, List.nil_prefix, and_true, true_and] at h
                  exact h0 h.symm
                · exact b h
          · rw [view_plain _ _ h255 h13]
            simp only [List.length_cons]
            refine ⟨by omega, fun h => ?_⟩
            obtain ⟨a, b⟩ := iht.2 (by omega)
            refine ⟨by simp [a]; exact fun h => h255 h.symm, ?_⟩
            rw [List.infix_cons_iff]
            rintro (h | h)
            · simp only [List.cons_prefix_cons] at h
              exact h13 h.1.symm
            · exact b h

/-- **C48** (refuted, exactly) A client that treats the bytes as telnet prescribes shows the text if and only if there is no byte 255 in it and no CR NUL; otherwise it shows less. -/
theorem C48_client_sees_exact (s : Str) : (view (encode s) = s ↔ (255 : Byte) ∉ s ∧ ¬ [13, 0] <:+: s) ∧ (view (encode s) ≠ s → (view (encode s)).length < s.length) := by
  obtain ⟨h1, h2⟩ := view_length _ s (Nat.le_refl _)
  refine ⟨⟨fun h => h2 (by rw [h]), fun h => C48_client_sees_partial s h.1 h.2⟩, fun h => ?_⟩
  rcases Nat.lt_or_ge (view (encode s)).length s.length with h3 | h3
  · exact h3
  · obtain ⟨a, b⟩ := h2 (by omega)
    exact absurd (C48_client_sees_partial s a b) h

example : (255 : Byte) ∉ bs!"caf\r\n" ∧ ¬ [13, 0] <:+: bs!"caf\r\n" := by decide

/-- **C48** Refuted: byte 255 (in Latin-1 `ÿ`) is not doubled; the text of two of them is shown as one, and a single one takes the next character with it. -/
theorem C48_iac_refuted : view (encode [255, 255]) = [255] ∧ view (encode [255, 120, 121]) = [121] := ⟨rfl, rfl⟩

example : encode bs!"a\nb\r\n" = bs!"a\r\nb\r\r\n" ∧ view (encode bs!"a\nb\r\n") = bs!"a\nb\r\n" := ⟨rfl, rfl⟩

/-! ### C49 -/

section
variable {σ τ : Type} (A : App σ τ)

/-- The keys decoded from data bytes. -/
def keysOf : Step → Str → Step × List Key
  | s, [] => (s, [])
  | s, c :: rest => ((keysOf (Telnet.output s c).1 rest).1, (Telnet.output s c).2.toList ++ (keysOf (Telnet.output s c).1 rest).2)

theorem keysOf_append (s : Step) (a b : Str) : keysOf s (a ++ b) = ((keysOf (keysOf s a).1 b).1, (keysOf s a).2 ++ (keysOf (keysOf s a).1 b).2) := by
  induction a generalizing s with
  | nil => rfl
  | cons c a ih => simp only [List.cons_append, keysOf, ih, List.append_assoc]

theorem rxNext_data (r : Rx) (c : Byte) : (rxNext r c).2.data = [] ∨ ∃ d, (rxNext r c).2.data = [d] := by
  have hd : ∀ s : State, (Telnet.data s c).2.data = [] ∨ ∃ d, (Telnet.data s c).2.data = [d] := by
    intro s; cases s <;> simp [Telnet.data]
  have h := consume_ok r c
  unfold consume at h
  split at h
  · split at h
    · simp only [Except.ok.injEq] at h; rw [← h]; exact hd _
    · rename_i h'
      obtain ⟨s', hs⟩ := command_ok r.state c h'
      simp only [hs, bind, Except.bind, Except.ok.injEq] at h
      rw [← h]; exact .inl rfl
  · split at h
    · simp only [Except.ok.injEq] at h; rw [← h]; exact .inl rfl
    · simp only [Except.ok.injEq] at h; rw [← h]; exact hd _

theorem put_put (w : World σ τ) (a b : Str) : (w.put a).put b = w.put (a ++ b) := by simp [World.put, Io.put]
theorem put_nil (w : World σ τ) : w.put [] = w := by simp [World.put, Io.put]

/-- The state after some bytes. -/
def after (t : Tel σ τ) (s : Str) : Tel σ τ :=
  ⟨(rxRun t.rx s).1, (keysOf t.step (rxRun t.rx s).2.data).1, t.queue ++ (keysOf t.step (rxRun t.rx s).2.data).2, { t.proc with w := t.proc.w.put (rxRun t.rx s).2.answer }⟩

theorem byte_after (t : Tel σ τ) (c : Byte) : Telnet.byte t c = .ok (after t [c]) := by
  simp only [Telnet.byte, consume_ok, bind, Except.bind, after, rxRun, List.append_nil]
  rcases rxNext_data t.rx c with h | ⟨d, h⟩
  · simp [h, keysOf]
  · rw [h]
    simp only [keysOf, List.append_nil]
    cases ho : Telnet.output t.step d with
    | mk s k => cases k <;> simp

theorem received_after (t : Tel σ τ) (s : Str) : Telnet.received t s = .ok (after t s) := by
  induction s generalizing t with
  | nil => simp [Telnet.received, after, rxRun, keysOf, put_nil]
  | cons c s ih =>
    simp only [Telnet.received, byte_after, bind, Except.bind, ih]
    simp only [after, rxRun, keysOf_append, List.append_nil, List.append_assoc, put_put]

/-- What reaches the processor: keys, and (not through the processor) text written to the session's stream. -/
inductive Op where
  | key (k : Key)
  | put (s : Str)

def runOps (fuel : Nat) : List Op → Proc σ τ → Except Fault (Proc σ τ × Option Exn)
  | [], p => .ok (p, none)
  | .put s :: ops, p => runOps fuel ops { p with w := p.w.put s }
  | .key k :: ops, p =>
    match keypressed A fuel p k with
    | .error f => .error f
    | .ok (p, some e) => .ok (p, some e)
    | .ok (p, none) => runOps fuel ops p

def opKeys : List Op → List Key
  | [] => []
  | .put _ :: ops => opKeys ops
  | .key k :: ops => k :: opKeys ops

/-- The effect of events on the processor, and the state of the rest after them. -/
def trace : List Ev → Rx → Step → List Key → List Op × Rx × Step × List Key
  | [], r, s, q => ([], r, s, q)
  | .packet b :: es, r, s, q =>
    let x := trace es (rxRun r b).1 (keysOf s (rxRun r b).2.data).1 (q ++ (keysOf s (rxRun r b).2.data).2)
    (.put (rxRun r b).2.answer :: x.1, x.2)
  | .task :: es, r, s, [] => trace es r s []
  | .task :: es, r, s, k :: q => let x := trace es r s q; (.key k :: x.1, x.2)
  | .disconnect :: es, r, s, q => trace es r s q

/-- The bytes in the packets. -/
def packets : List Ev → Str
  | [] => []
  | .packet b :: es => b ++ packets es
  | _ :: es => packets es

theorem events_trace (fuel : Nat) (es : List Ev) (r : Rx) (s : Step) (q : List Key) (p : Proc σ τ) :
    match runOps A fuel (trace es r s q).1 p with
    | .error f => Telnet.events A fuel es ⟨r, s, q, p⟩ = .error f
    | .ok (p', some e) => ∃ t', Telnet.events A fuel es ⟨r, s, q, p⟩ = .ok (t', some e) ∧ t'.proc = p'
    | .ok (p', none) => Telnet.events A fuel es ⟨r, s, q, p⟩ = .ok (⟨(trace es r s q).2.1, (trace es r s q).2.2.1, (trace es r s q).2.2.2, p'⟩, none) := by
  induction es generalizing r s q p with
  | nil => rfl
  | cons e es ih =>
    cases e with
    | packet b =>
      have h := ih (rxRun r b).1 (keysOf s (rxRun r b).2.data).1 (q ++ (keysOf s (rxRun r b).2.data).2) { p with w := p.w.put (rxRun r b).2.answer }
      simp only [trace, runOps, Telnet.events, Telnet.event, received_after, bind, Except.bind]
      exact h
    | disconnect => exact ih r s q p
    | task =>
      cases q with
      | nil => exact ih r s [] p
      | cons k q =>
        simp only [trace, runOps, Telnet.events, Telnet.event, bind, Except.bind]
        cases hk : keypressed A fuel p k with
        | error f => simp only [hk]
        | ok x =>
          obtain ⟨p1, e1⟩ := x
          cases e1 with
          | some e => simp only [hk]; exact ⟨_, rfl, rfl⟩
          | none => simp only [hk]; exact ih r s q p1

theorem trace_keys (es : List Ev) (r : Rx) (s : Step) (q : List Key) :
    opKeys (trace es r s q).1 ++ (trace es r s q).2.2.2 = q ++ (keysOf s (rxRun r (packets es)).2.data).2 ∧
    (trace es r s q).2.1 = (rxRun r (packets es)).1 ∧ (trace es r s q).2.2.1 = (keysOf s (rxRun r (packets es)).2.data).1 := by
  induction es generalizing r s q with
  | nil => simp [trace, opKeys, packets, rxRun, keysOf]
  | cons e es ih =>
    cases e with
    | packet b =>
      obtain ⟨h1, h2, h3⟩ := ih (rxRun r b).1 (keysOf s (rxRun r b).2.data).1 (q ++ (keysOf s (rxRun r b).2.data).2)
      simp only [trace, opKeys, packets, rxRun_append, keysOf_append]
      exact ⟨by rw [h1, List.append_assoc], h2, h3⟩
    | disconnect => exact ih r s q
    | task =>
      cases q with
      | nil => exact ih r s []
      | cons k q =>
        obtain ⟨h1, h2, h3⟩ := ih r s q
        exact ⟨by simp only [trace, opKeys, packets, List.cons_append, h1], h2, h3⟩

theorem trace_append (es fs : List Ev) (r : Rx) (s : Step) (q : List Key) :
    (trace (es ++ fs) r s q).2 = (trace fs (trace es r s q).2.1 (trace es r s q).2.2.1 (trace es r s q).2.2.2).2 := by
  induction es generalizing r s q with
  | nil => rfl
  | cons e es ih =>
    cases e with
    | packet b => exact ih _ _ _
    | disconnect => exact ih r s q
    | task => cases q <;> exact ih r s _

theorem trace_tasks (n : Nat) (r : Rx) (s : Step) (q : List Key) (h : q.length ≤ n) : (trace (List.replicate n .task) r s q).2.2.2 = [] := by
  induction n generalizing q with
  | zero =>
    have : q = [] := by simpa using h
    exact this
  | succ n ih =>
    rw [List.replicate_succ]
    cases q with
    | nil => exact ih [] (by simp)
    | cons k q => exact ih q (by simpa using h)

theorem packets_append (es fs : List Ev) : packets (es ++ fs) = packets es ++ packets fs := by
  induction es with
  | nil => rfl
  | cons e es ih => cases e <;> simp [packets, ih]

theorem packets_tasks (n : Nat) : packets (List.replicate n .task) = [] := by
  induction n with
  | zero => rfl
  | succ n ih => rw [List.replicate_succ]; exact ih

/-- Text written after a line has been executed, unless an exception ended everything. -/
def afterwards (late : Str) (x : Except Fault (Proc σ τ × Option Exn)) : Except Fault (Proc σ τ × Option Exn) :=
  x.map (fun r => match r.2 with
    | none => ({ r.1 with w := r.1.w.put late }, none)
    | some e => (r.1, some e))

theorem runOps_puts (fuel : Nat) (ops : List Op) (h : opKeys ops = []) (p : Proc σ τ) : ∃ late, runOps A fuel ops p = .ok ({ p with w := p.w.put late }, none) := by
  induction ops generalizing p with
  | nil => exact ⟨[], by simp [runOps, put_nil]⟩
  | cons o ops ih =>
    cases o with
    | key k => simp [opKeys] at h
    | put s =>
      obtain ⟨late, hl⟩ := ih h { p with w := p.w.put s }
      exact ⟨s ++ late, by rw [runOps, hl]; simp only [put_put]⟩

theorem runOps_quiet (fuel : Nat) (ops : List Op) (ks : List Key) (h : opKeys ops = ks ++ [.ret]) (hk : ∀ k ∈ ks, Quiet k) (p : Proc σ τ) (z : Zip) (hz : Rep p.term z) :
    ∃ io late, runOps A fuel ops p = afterwards late (enterLine A fuel (ks.foldl Zip.key z).text { p.w with io := io }) := by
  induction ops generalizing ks p z with
  | nil => simp [opKeys] at h
  | cons o ops ih =>
    cases o with
    | put s => exact ih ks h hk { p with w := p.w.put s } z hz
    | key k =>
      cases ks with
      | nil =>
        simp only [opKeys, List.nil_append, List.cons.injEq] at h
        obtain ⟨rfl, h⟩ := h
        refine ⟨p.w.io.put bs!"\r\n", ?_⟩
        have hl : p.term.line = z.text := hz.1
        have hkp : keypressed A fuel p .ret = enterLine A fuel z.text { p.w with io := p.w.io.put bs!"\r\n" } := by
          unfold keypressed enterLine
          simp only [Terminal.keypressed, bind, Except.bind, newCommand, hl]
          cases hf : feed A fuel z.text { p.w with io := p.w.io.put bs!"\r\n" } with
          | error f => rfl
          | ok r =>
            obtain ⟨w', x⟩ := r
            cases x with
            | some e => rfl
            | none =>
              simp only
              cases prompt w' <;> rfl
        simp only [List.foldl_nil]
        rw [runOps, hkp]
        cases he : enterLine A fuel z.text { p.w with io := p.w.io.put bs!"\r\n" } with
        | error f => exact ⟨[], rfl⟩
        | ok r =>
          obtain ⟨p1, x⟩ := r
          cases x with
          | some e => exact ⟨[], rfl⟩
          | none => exact runOps_puts A fuel ops h p1
      | cons k' ks =>
        simp only [opKeys, List.cons_append, List.cons.injEq] at h
        obtain ⟨rfl, h⟩ := h
        obtain ⟨io1, h1⟩ := keypressed_rep p.term z p.w.io k hz
        have hq := hk k (by simp)
        have hreq : z.request k = .nothing := by
          cases k with
          | ascii c => simp [Zip.request, show c ≠ b%'\t' from hq]
          | up => exact hq.elim
          | down => exact hq.elim
          | ret => exact hq.elim
          | eof => exact hq.elim
          | clear => exact hq.elim
          | _ => rfl
        rw [hreq] at h1
        obtain ⟨io, late, h2⟩ := ih ks h (fun k hk' => hk k (by simp [hk'])) ⟨{ p.w with io := io1 }, ⟨(z.key k).text, (z.key k).before.length⟩, p.active⟩ (z.key k) (rep_mk _)
        refine ⟨io, late, ?_⟩
        rw [runOps, show keypressed A fuel p k = .ok (⟨{ p.w with io := io1 }, ⟨(z.key k).text, (z.key k).before.length⟩, p.active⟩, none) by
          unfold keypressed; simp only [h1, bind, Except.bind, newCommand]]
        exact h2

theorem keysOf_line (line : Str) (h : Printable line) (e : Byte) (he : e = 0 ∨ e = 10) : keysOf .s1 (line ++ [13, e]) = (.s1, line.map Key.ascii ++ [.ret]) := by
  have h1 : keysOf .s1 line = (.s1, line.map Key.ascii) := by
    induction line with
    | nil => rfl
    | cons c line ih =>
      have hc := h c (by simp)
      have : Telnet.output .s1 c = (.s1, some (.ascii c)) := by
        simp only [printable, Bool.and_eq_true, decide_eq_true_eq] at hc
        have hne : ∀ d : Byte, d.toNat < 32 ∨ 126 < d.toNat → c ≠ d := by rintro d hd rfl; omega
        simp [Telnet.output, hne 255 (by decide), hne 4 (by decide), hne 8 (by decide), hne 127 (by decide), hne 12 (by decide), hne 27 (by decide), hne 13 (by decide)]
      simp [keysOf, this, ih (fun d hd => h d (by simp [hd]))]
  rw [keysOf_append, h1]
  rcases he with rfl | rfl <;> rfl

/-- **C49** A client sends any printable line and CR NUL or CR LF, with any commands and negotiations before, between and after the bytes, cut into packets in any way; the packets arrive interleaved in
    any way with the handling of the keys, and enough keys are handled after the last one. Then exactly that line is executed, once, in the state in which the session was (but for the output), and the
    session is then ready for the next line; what is written besides is due to negotiations. Missing: negotiations about option 255 (refuted below). -/
theorem C49_line_partial (fuel : Nat) (w : World σ τ) (line : Str) (hl : Printable line) (e : Byte) (he : e = 0 ∨ e = 10) (items : List Item) (hv : ∀ i ∈ items, i.Valid ∧ i.NotExtended)
    (hi : items.flatMap Item.text = line ++ [13, e]) (es : List Ev) (hp : packets es = items.flatMap Item.wire) (n : Nat) (hn : line.length + 1 ≤ n) :
    ∃ io late, match enterLine A fuel line { w with io := io } with
      | .error f => Telnet.events A fuel (es ++ List.replicate n .task) ⟨Rx.init, .s1, [], ⟨w, ⟨[], 0⟩, true⟩⟩ = .error f
      | .ok (p, some x) => ∃ t', Telnet.events A fuel (es ++ List.replicate n .task) ⟨Rx.init, .s1, [], ⟨w, ⟨[], 0⟩, true⟩⟩ = .ok (t', some x) ∧ t'.proc = p
      | .ok (p, none) => Telnet.events A fuel (es ++ List.replicate n .task) ⟨Rx.init, .s1, [], ⟨w, ⟨[], 0⟩, true⟩⟩ =
          .ok (⟨Rx.init, .s1, [], { p with w := p.w.put late }⟩, none) := by
  have hpk : packets (es ++ List.replicate n .task) = items.flatMap Item.wire := by rw [packets_append, packets_tasks, hp, List.append_nil]
  obtain ⟨h1, h2, h3⟩ := trace_keys (es ++ List.replicate n .task) Rx.init .s1 []
  rw [hpk, rxRun_items items hv] at h1 h2 h3
  simp only [hi, keysOf_line line hl e he, List.nil_append] at h1 h2 h3
  have h4 : (trace (es ++ List.replicate n .task) Rx.init .s1 []).2.2.2 = [] := by
    rw [trace_append]
    refine trace_tasks n _ _ _ ?_
    obtain ⟨g1, _, _⟩ := trace_keys es Rx.init .s1 []
    rw [hp, rxRun_items items hv] at g1
    simp only [hi, keysOf_line line hl e he, List.nil_append] at g1
    have := congrArg List.length g1
    simp at this
    omega
  rw [h4, List.append_nil] at h1
  have hev := events_trace A fuel (es ++ List.replicate n .task) Rx.init .s1 [] ⟨w, ⟨[], 0⟩, true⟩
  rw [h2, h3, h4] at hev
  have htab : b%'\t' ∉ line := by
    intro hm
    have := hl _ hm
    simp [printable] at this
  obtain ⟨io, late, hr⟩ := runOps_quiet A fuel _ (line.map Key.ascii) h1 (by
    intro k hk
    obtain ⟨c, hc, rfl⟩ := List.mem_map.1 hk
    exact fun e => htab (e ▸ hc)) ⟨w, ⟨[], 0⟩, true⟩ ⟨[], []⟩ ⟨rfl, rfl⟩
  have htext : ((line.map Key.ascii).foldl Zip.key ⟨[], []⟩).text = line := by rw [typed_text line htab]; simp [Zip.text]
  rw [htext] at hr
  rw [hr] at hev
  refine ⟨io, late, ?_⟩
  cases hel : enterLine A fuel line { w with io := io } with
  | error f => rw [hel] at hev; exact hev
  | ok r =>
    obtain ⟨p, x⟩ := r
    rw [hel] at hev
    cases x <;> exact hev

/-- **C49** Refuted: with a negotiation about option 255 in the middle another line is executed. -/
theorem C49_option_255_refuted : ∃ items : List Item, (∀ i ∈ items, i.Valid) ∧ items.flatMap Item.text = bs!"axxny" ++ [13, 10] ∧
    (Telnet.events Sample.app 5 (.packet (items.flatMap Item.wire) :: List.replicate 9 .task) ⟨Rx.init, .s1, [], Sample.proc Sample.world []⟩).map
      (fun r => (r.1.proc.w.app, r.1.queue, r.2)) = .ok ([5], [], none) ∧
    (feed Sample.app 5 bs!"axxny" Sample.world).map (fun r => r.1.app) = .ok [] :=
  ⟨[.data b%'a', .option .do 255, .data b%'x', .data b%'x', .data b%'n', .data b%'y', .data 13, .data 10], by simp [Item.Valid], rfl, rfl, rfl⟩

example : (Telnet.events Sample.app 5 ([.packet [b%'a', 255], .task, .packet [251, 31, b%'n', b%'y', 13], .task, .task, .packet [255, 253, 5, 10]] ++ List.replicate 4 .task)
    ⟨Rx.init, .s1, [], Sample.proc Sample.world []⟩).map (fun r => (r.1.proc.w.app, r.1.proc.w.io.out, r.1.queue, r.2)) =
    .ok ([5], bs!"a" ++ [255, 253, 31] ++ bs!"ny" ++ [255, 252, 5] ++ bs!"\r\nok\ncli> ", [], none) := by rfl

end

/-! ### C50 -/

section
variable {σ τ : Type} (A : App σ τ)
open Verif.Telnet (telnetApp exitAction lift)

/-- A closed connection is not opened again. -/
def StaysClosed (w w' : World (σ × Bool) τ) : Prop := w.app.2 = false → w'.app.2 = false

theorem exitAction_closed (server : Option (σ → Effect σ)) (alive : Bool) (s : σ × Bool) (h : s.2 = false) : (exitAction server alive s).app.2 = false := by
  unfold exitAction
  repeat' split
  all_goals simp [h]

theorem closed_staysClosed (server : Option (σ → Effect σ)) (alive : Bool) : Closed (telnetApp A server alive) StaysClosed where
  refl := fun _ h => h
  trans := fun h1 h2 h => h2 (h1 h)
  handler := by
    intro c vals w h
    show ((w.effect _).app).2 = false
    rw [(effect_result w _).1]
    exact h
  note := fun _ _ _ h => h
  put := fun _ _ h => h
  exception := by
    intro f hf w l e h
    rw [(effect_result w _).1]
    obtain ⟨g, _, rfl⟩ := Option.map_eq_some_iff.1 hf
    exact h
  wrong := by
    intro f hf w l h
    rw [(effect_result w _).1]
    obtain ⟨g, _, rfl⟩ := Option.map_eq_some_iff.1 hf
    exact h
  exitSession := by
    intro f hf w h
    rw [(effect_result w _).1]
    cases hf
    exact exitAction_closed server alive w.app h
  exitGlobal := by
    intro f hf w h
    rw [(effect_result w _).1]
    obtain ⟨g, _, rfl⟩ := Option.map_eq_some_iff.1 hf
    exact h
  enterSession := by intro f hf; cases hf
  enterGlobal := by
    intro f hf w h
    rw [(effect_result w _).1]
    obtain ⟨g, _, rfl⟩ := Option.map_eq_some_iff.1 hf
    exact h
  enter := fun _ _ _ h => h
  saved := fun _ _ _ h => h
  unsaved := fun _ _ h => h

theorem optGlobal_closed (server : Option (σ → Effect σ)) (alive : Bool) (w : World (σ × Bool) τ) (h : w.app.2 = false) :
    (optAction (telnetApp (τ := τ) A server alive).exitGlobal .exitGlobal w).1.app.2 = false := by
  rw [(optAction_result _ _ w).2.1]
  show (does (A.exitGlobal.map _) w.app).app.2 = false
  cases A.exitGlobal with
  | none => exact h
  | some g => exact h

theorem exit_disconnects (f : σ → Effect σ) (w w' : World (σ × Bool) τ) (x : Option Exn) (hf : (f w.app.1).exn = none)
    (h : exitSession (telnetApp A (some f) true) w = .ok (w', x)) : w'.app.2 = false ∧ Event.exitSession ∈ w'.log := by
  rw [exitSession_eq] at h
  simp only [show (telnetApp A (some f) true).exitSession = some (exitAction (some f) true) from rfl] at h
  obtain ⟨a1, a2, _, a4, _⟩ := optAction_result (τ := τ) (some (exitAction (some f) true)) .exitSession w
  cases hc : w.app.2 with
  | false =>
    simp only [does, exitAction, hf, hc, Bool.not_false, if_true, mark, Option.isSome_some] at a1 a2 a4
    cases ho : optAction (some (exitAction (some f) true)) .exitSession w with
    | mk w1 x1 =>
      rw [ho] at h a1 a2 a4
      simp only at a1 a2 a4
      subst a1
      cases h
      exact ⟨by rw [a2], by rw [a4]; simp⟩
  | true =>
    simp only [does, exitAction, hf, hc, Bool.not_true, Bool.false_eq_true, if_false, if_true, mark, Option.isSome_some] at a1 a2 a4
    cases ho : optAction (some (exitAction (some f) true)) .exitSession w with
    | mk w1 x1 =>
      rw [ho] at h a1 a2 a4
      simp only at a1 a2 a4
      subst a1
      simp only at h
      have b := optGlobal_closed A (some f) true w1 (by rw [a2])
      obtain ⟨_, _, _, b4, _⟩ := optAction_result (τ := τ) (telnetApp (τ := τ) A (some f) true).exitGlobal .exitGlobal w1
      cases ho2 : optAction (telnetApp (τ := τ) A (some f) true).exitGlobal .exitGlobal w1 with
      | mk w2 x2 =>
        rw [ho2] at h b b4
        have hm : Event.exitSession ∈ w2.log := by rw [b4, a4]; simp
        cases x2 with
        | some e => cases h; exact ⟨b, hm⟩
        | none =>
          simp only at h
          split at h
          · cases h
          · split at h <;> (cases h; exact ⟨b, by simp [World.note, hm]⟩)

/-- The log only grows. -/
theorem log_grows {B : App σ τ} {w w' : World σ τ} {line : Str} {toks : List Str} {o : Outcome} {x : Option Exn}
    (h : catchAll B line (fallback B line toks (.ok (w, o))) = .ok (w', x)) : ∃ evs, w'.log = w.log ++ evs := by
  have hc := closed_flagged B
  have : Flagged w w' := by
    by_cases ho : o = .notFound
    · subst ho
      simp only [fallback] at h
      cases hu : userPart B line toks w with
      | error f => rw [hu] at h; cases h
      | ok v =>
        obtain ⟨w3, o3⟩ := v
        rw [hu] at h
        exact hc.trans (closed_userPart hc.core line toks _ _ _ hu) (closed_catchAll hc.core line _ _ _ _ h)
    · have h' : catchAll B line (.ok (w, o)) = .ok (w', x) := by
        cases o with
        | notFound => exact absurd rfl ho
        | found => exact h
        | thrown e => exact h
      exact closed_catchAll hc.core line _ _ _ _ h'
  obtain ⟨evs, h1, _⟩ := this
  exact ⟨evs, h1⟩

/-- **C50** (part) If the server has an exit action, which does not throw, and the client is still there: when `exit` is entered, the action runs and the client is disconnected, whatever the
    rest of the application does (in particular if the exit action of the `Cli` throws). Missing: servers without an exit action, or with one that throws, and clients that have gone (refuted below). -/
theorem C50_exit_partial (f : σ → Effect σ) (fuel : Nat) (line : Str) (hl : Lex.Line line [bs!"exit"]) (w w' : World (σ × Bool) τ) (x : Option Exn)
    (hf : (f w.app.1).exn = none) (h : feed (telnetApp A (some f) true) (fuel + 1) line w = .ok (w', x)) : w'.app.2 = false ∧ Event.exitSession ∈ w'.log := by
  rw [feed_eq _ hl (by simp)] at h
  split at h
  · cases h
  · rename_i h1 hh
    have hs : scanGlobal (telnetApp A (some f) true) (feed (telnetApp A (some f) true) fuel) [bs!"exit"] (w.entered h1) =
        (match exitSession (telnetApp A (some f) true) ((w.entered h1).note (.builtin .exit)) with
        | .error f => .error f
        | .ok (w, x) => .ok (w, builtinOutcome x)) := by
      simp only [scanGlobal, show ¬ bs!"exit" = bs!"help" by decide, if_false, if_true, bind, Except.bind]
      cases exitSession (telnetApp A (some f) true) ((w.entered h1).note (.builtin .exit)) <;> rfl
    unfold body at h
    rw [hs] at h
    cases he : exitSession (telnetApp A (some f) true) ((w.entered h1).note (.builtin .exit)) with
    | error g => rw [he] at h; cases h
    | ok v =>
      obtain ⟨w2, x2⟩ := v
      obtain ⟨g1, g2⟩ := exit_disconnects A f ((w.entered h1).note (.builtin .exit)) w2 x2 hf he
      rw [he] at h
      replace h : catchAll (telnetApp A (some f) true) line (fallback (telnetApp A (some f) true) line [bs!"exit"] (.ok (w2, builtinOutcome x2))) = .ok (w', x) := h
      obtain ⟨evs, hev⟩ := log_grows h
      refine ⟨?_, by rw [hev]; simp [g2]⟩
      have hc := closed_staysClosed (τ := τ) A (some f) true
      generalize builtinOutcome x2 = o at h
      by_cases ho : o = .notFound
      · subst ho
        simp only [fallback] at h
        cases hu : userPart (telnetApp A (some f) true) line [bs!"exit"] w2 with
        | error f => rw [hu] at h; cases h
        | ok v =>
          obtain ⟨w3, o3⟩ := v
          rw [hu] at h
          exact hc.trans (closed_userPart hc.core line _ _ _ _ hu) (closed_catchAll hc.core line _ _ _ _ h) g1
      · have h' : catchAll (telnetApp A (some f) true) line (.ok (w2, o)) = .ok (w', x) := by
          cases o with
          | notFound => exact absurd rfl ho
          | found => exact h
          | thrown e => exact h
        exact closed_catchAll hc.core line _ _ _ _ h' g1

/-- **C50** (part) The same for Ctrl-D. -/
theorem C50_eof_partial (f : σ → Effect σ) (fuel : Nat) (p p' : Proc (σ × Bool) τ) (x : Option Exn) (hf : (f p.w.app.1).exn = none)
    (h : keypressed (telnetApp A (some f) true) fuel p .eof = .ok (p', x)) : p'.w.app.2 = false ∧ Event.exitSession ∈ p'.w.log := by
  unfold keypressed at h
  simp only [Terminal.keypressed, bind, Except.bind, newCommand] at h
  split at h
  · cases h
  · rename_i v he
    cases h
    exact exit_disconnects A f _ _ _ hf he

/-- The exit action of the session throws: the server has none, or it throws, or `shutdown` throws, since the client has gone or since the connection has already been closed. The exception, and the state of the application. -/
inductive ExitFails (server : Option (σ → Effect σ)) (alive : Bool) (s : σ × Bool) : Exn → σ → Prop
  | none : server = .none → ExitFails server alive s (.std bs!"bad_function_call") s.1
  | throws (f : σ → Effect σ) (e : Exn) : server = some f → (f s.1).exn = some e → ExitFails server alive s e (f s.1).app
  | gone (f : σ → Effect σ) : server = some f → (f s.1).exn = .none → s.2 = true → alive = false → ExitFails server alive s (.std bs!"shutdown: Transport endpoint is not connected") (f s.1).app
  | closed (f : σ → Effect σ) : server = some f → (f s.1).exn = .none → s.2 = false → ExitFails server alive s (.std bs!"shutdown: Bad file descriptor") (f s.1).app

/-- **C50** In general: on Ctrl-D, in each of the cases in which the exit action fails, the exception leaves the scheduler, the connection stays as it is, and neither is the history saved nor is the session marked as exited. -/
theorem C50_eof_stays (server : Option (σ → Effect σ)) (alive : Bool) (fuel : Nat) (p : Proc (σ × Bool) τ) (e : Exn) (a : σ) (hf : ExitFails server alive p.w.app e a) :
    ∃ p', keypressed (telnetApp A server alive) fuel p .eof = .ok (p', some e) ∧ p'.w.app = (a, p.w.app.2) ∧ p'.w.storage = p.w.storage ∧ p'.w.exit = p.w.exit ∧
      p'.w.log = p.w.log ++ [.exitSession] := by
  have hx : (exitAction server alive p.w.app).exn = some e ∧ (exitAction server alive p.w.app).app = (a, p.w.app.2) := by
    cases hf with
    | none h => subst h; exact ⟨rfl, rfl⟩
    | throws f e h h1 => subst h; simp [exitAction, h1]
    | gone f h h1 h2 h3 => subst h; simp [exitAction, h1, h2, h3]
    | closed f h h1 h2 => subst h; simp [exitAction, h1, h2]
  unfold keypressed
  simp only [Terminal.keypressed, bind, Except.bind, newCommand]
  generalize hw : ({ p.w with io := _ } : World (σ × Bool) τ) = w
  have hw' : w.app = p.w.app ∧ w.storage = p.w.storage ∧ w.exit = p.w.exit ∧ w.log = p.w.log := by rw [← hw]; exact ⟨rfl, rfl, rfl, rfl⟩
  obtain ⟨k1, k2, k3, k4⟩ := hw'
  have hes : exitSession (telnetApp A server alive) w = .ok ((optAction (some (exitAction server alive)) .exitSession w).1, some e) := by
    rw [exitSession_eq]
    simp only [show (telnetApp A server alive).exitSession = some (exitAction server alive) from rfl]
    obtain ⟨a1, _⟩ := optAction_result (τ := τ) (some (exitAction server alive)) .exitSession w
    simp only [does, k1, hx.1] at a1
    cases ho : optAction (some (exitAction server alive)) .exitSession w with
    | mk w1 x1 => rw [ho] at a1; simp only at a1; subst a1; rfl
  rw [hes]
  obtain ⟨_, a2, _, a4, a5⟩ := optAction_result (τ := τ) (some (exitAction server alive)) .exitSession w
  refine ⟨_, rfl, ?_, ?_, ?_, ?_⟩
  · simp only [a2, does, k1, hx.2]
  · exact a5.storage.trans k2
  · exact a5.exit.trans k3
  · rw [← k4]; exact a4

/-- The four cases. -/
example (s : List Nat) : ExitFails (none : Option (List Nat → Effect (List Nat))) true (s, true) (.std bs!"bad_function_call") s := .none rfl
example (s : List Nat) : ExitFails (some (fun s => ⟨9 :: s, [], some .other⟩)) true (s, true) .other (9 :: s) := .throws _ _ rfl rfl
example (s : List Nat) : ExitFails (some (fun s => ⟨9 :: s, [], none⟩)) false (s, true) (.std bs!"shutdown: Transport endpoint is not connected") (9 :: s) := .gone _ rfl rfl rfl rfl
example (s : List Nat) : ExitFails (some (fun s => ⟨9 :: s, [], none⟩)) true (s, false) (.std bs!"shutdown: Bad file descriptor") (9 :: s) := .closed _ rfl rfl rfl

/-- The state of a client that has entered lines over a connection. -/
def online (w : World (List Nat) (List Str)) : World (List Nat × Bool) (List Str) := { w with app := (w.app, true) }

/-- **C50** Refuted: with a server without an exit action the client is not disconnected (and the exit action of the `Cli` does not run, and the history is not saved); Ctrl-D throws an exception out of the
    scheduler. -/
theorem C50_no_exit_action_refuted :
    (feed (telnetApp Sample.app none true) 5 bs!"exit" (online Sample.world)).map (fun r => (r.1.app.2, r.1.exit, r.1.storage, r.1.io.out)) = .ok (true, false, [], bs!"bad_function_call\n") ∧
    (Telnet.events (telnetApp Sample.app none true) 5 [.packet [4], .task] ⟨Rx.init, .s1, [], ⟨online Sample.world, ⟨[], 0⟩, true⟩⟩).map
      (fun r => (r.1.proc.w.app.2, r.1.proc.w.exit, r.2)) = .ok (true, false, some (.std bs!"bad_function_call")) := ⟨rfl, rfl⟩

/-- **C50** Refuted: the same, if the exit action of the server throws, or if the client has already gone (the exception is that of `shutdown`). -/
theorem C50_gone_refuted :
    (Telnet.events (telnetApp Sample.app (some (fun s => ⟨s, [], none⟩)) false) 5 [.packet [4], .disconnect, .task] ⟨Rx.init, .s1, [], ⟨online Sample.world, ⟨[], 0⟩, true⟩⟩).map
      (fun r => (r.1.proc.w.app.2, r.1.proc.w.exit, r.2.isSome)) = .ok (true, false, true) := by rfl

/-- **C50** Refuted: a client sends Ctrl-D twice in one packet. It is disconnected, and then the exit action runs again, `shutdown` of the closed socket throws, and the exception leaves the scheduler. -/
theorem C50_twice_refuted :
    (Telnet.events (telnetApp Sample.app (some (fun s => ⟨99 :: s, [], none⟩)) true) 5 [.packet [4, 4], .task, .task] ⟨Rx.init, .s1, [], ⟨online Sample.world, ⟨[], 0⟩, true⟩⟩).map
      (fun r => (r.1.proc.w.app, r.1.proc.w.exit, r.2)) = .ok (([99, 99], false), true, some (.std bs!"shutdown: Bad file descriptor")) := by rfl

example : (feed (telnetApp Sample.app (some (fun s => ⟨99 :: s, [.out bs!"bye\n"], none⟩)) true) 5 bs!"exit" (online Sample.world)).map
    (fun r => (r.1.app, r.1.exit, r.1.storage, r.1.io.out)) = .ok (([99], false), true, [bs!"exit"], bs!"bye\n") := by rfl

/-! ### C68 -/

/-- **C68** (part) If the client enters `exit` before it leaves (for the first time, so that it is connected), the history is saved. Missing: clients that just leave (refuted below). -/
theorem C68_saved_partial (f : σ → Effect σ) (w : World (σ × Bool) τ) (hc : w.app.2 = true) (hw : History.WF w.hist) (hf : (f w.app.1).exn = none) (hg : A.exitGlobal = none) (hs : ∀ cmds, A.storeFails w.storage cmds = none) :
    ∃ w' cmds, exitSession (telnetApp A (some f) true) w = .ok (w', none) ∧ History.getCommands w.hist = .ok cmds ∧ w'.storage = A.store w.storage cmds ∧ w'.app = ((f w.app.1).app, false) := by
  have he : exitAction (some f) true w.app = ⟨((f w.app.1).app, false), (f w.app.1).acts, none⟩ := by simp [exitAction, hf, hc]
  have hg' : (telnetApp (τ := τ) A (some f) true).exitGlobal = none := by simp [telnetApp, hg]
  obtain ⟨w', cmds, h1, h2, h3, _, _, h6, _⟩ := C57_exit (telnetApp A (some f) true) (exitAction (some f) true) rfl w hw (by rw [he]) (by rw [hg']; rfl) hs
  refine ⟨w', cmds, h1, h2, h6, ?_⟩
  rw [h3, hg', he]
  rfl

/-- **C68** Refuted: when the client just closes the connection, nothing happens: no exit action runs and the history is not saved. -/
theorem C68_disconnect_refuted (B : App σ τ) (fuel : Nat) (t : Tel σ τ) : Telnet.event B fuel t .disconnect = .ok (t, none) := rfl

example : (Telnet.events Sample.app 5 ([.packet (bs!"any" ++ [13, 0])] ++ List.replicate 4 .task ++ [.disconnect]) ⟨Rx.init, .s1, [], Sample.proc Sample.world []⟩).map
    (fun r => (r.1.proc.w.app, r.1.proc.w.storage, r.1.proc.w.exit)) = .ok ([5], [], false) := by rfl

end

end Verif.Props
