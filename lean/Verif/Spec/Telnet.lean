import Verif.Basic

/-!
# Specification of telnet streams (RFC 854, RFC 855)
-/

namespace Verif.Spec.Telnet
open Verif

inductive Verb where
  | will | wont | «do» | dont
  deriving DecidableEq, Repr

def Verb.code : Verb → Byte
  | .will => 251
  | .wont => 252
  | .do => 253
  | .dont => 254

/-- What a telnet stream consists of. -/
inductive Item where
  | data (c : Byte)
  /-- a command without parameters, NOP ... GA -/
  | command (c : Byte)
  /-- an option negotiation -/
  | option (v : Verb) (x : Byte)
  /-- a sub-negotiation -/
  | sub (body : Str)
  deriving DecidableEq, Repr

def Item.Valid : Item → Prop
  | .command c => 241 ≤ c.toNat ∧ c.toNat ≤ 249
  | _ => True

/-- IAC (255) is doubled in data and in the parameters of sub-negotiations. -/
def quoted (s : Str) : Str := s.flatMap (fun c => if c = 255 then [255, 255] else [c])

/-- (RFC 854: the commands dealing with option negotiation are three byte sequences.) -/
def Item.wire : Item → Str
  | .data c => quoted [c]
  | .command c => [255, c]
  | .option v x => [255, v.code, x]
  | .sub body => 255 :: 250 :: quoted body ++ [255, 240]

/-- Not a negotiation about option 255 (extended options list, RFC 861). -/
def Item.NotExtended : Item → Prop
  | .option _ x => x ≠ 255
  | _ => True

/-- The data bytes of an item. -/
def Item.text : Item → Str
  | .data c => [c]
  | _ => []

/-- The request that an item makes, if it makes one. -/
def Item.request : Item → Option (Verb × Byte)
  | .option .will x => some (.will, x)
  | .option .do x => some (.do, x)
  | _ => none

/-- The options an endpoint may agree to, according to what the other proposes: to have the client suppress go-ahead or report its window size; to echo or to suppress go-ahead. -/
def supported : Verb → List Byte
  | .will => [3, 31]
  | .do => [1, 3]
  | _ => []

/-- The verb that refuses a request. -/
def Verb.refusal : Verb → Verb
  | .will => .dont
  | .do => .wont
  | v => v

/-- The bytes answer the request: one command, about the same option, and a refusal unless the option is supported. -/
def Answers (r : Verb × Byte) (bytes : Str) : Prop :=
  ∃ v : Verb, bytes = [255, v.code, r.2] ∧ (r.2 ∉ supported r.1 → v = r.1.refusal)

/-- Each request is answered, in order, and there are no other answers. -/
inductive Answered : List (Verb × Byte) → List Str → Prop
  | nil : Answered [] []
  | cons {r b rs bs} : Answers r b → Answered rs bs → Answered (r :: rs) (b :: bs)

/-- The text shown by a client that treats the bytes as telnet prescribes: IAC IAC is the byte 255, CR LF a new line, CR NUL a carriage return. (Commands of two bytes are skipped; after a single IAC at the
    end the client waits for more; option negotiations play no part here.) -/
def view : Str → Str
  | 255 :: 255 :: rest => 255 :: view rest
  | 255 :: _ :: rest => view rest
  | [255] => []
  | 13 :: 10 :: rest => 10 :: view rest
  | 13 :: 0 :: rest => 13 :: view rest
  | c :: rest => c :: view rest
  | [] => []

/-- CR LF becomes LF. -/
def dropCr : Str → Str
  | 13 :: 10 :: rest => 10 :: dropCr rest
  | c :: rest => c :: dropCr rest
  | [] => []

/-- What a client is sent first: it is asked for line mode (34), without editing on its side (RFC 1184: MODE is 1, and no bit of the mask is set), and the program offers to echo (1). -/
def welcome : Str := (Item.option .do 34).wire ++ (Item.sub [34, 1, 0]).wire ++ (Item.option .will 1).wire

end Verif.Spec.Telnet
