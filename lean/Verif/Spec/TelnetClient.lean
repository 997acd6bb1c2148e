import Verif.Spec.Telnet

/-!
# Specification: a telnet client that negotiates as RFC 854 and RFC 855 prescribe

It makes no proposals of its own. It agrees to the options it supports, refuses the others, and answers only to what changes an option.
-/

namespace Verif.Spec.Telnet
open Verif

/-- The options the client supports on its own side, and those it accepts on the server's side. -/
structure Client where
  mine : Byte → Bool
  yours : Byte → Bool

/-- The options in force: performed by the client, and by the server. -/
structure InForce where
  client : Byte → Bool
  server : Byte → Bool

def InForce.none : InForce := ⟨fun _ => false, fun _ => false⟩

def switch (f : Byte → Bool) (x : Byte) (on : Bool) : Byte → Bool := fun y => if y = x then on else f y

/-- What the client does on receiving an item: the options in force then, and its answer. -/
def Client.receive (c : Client) (s : InForce) : Item → InForce × List Item
  | .option .do x =>
    if s.client x then (s, [])
    else if c.mine x then ({ s with client := switch s.client x true }, [.option .will x])
    else (s, [.option .wont x])
  | .option .dont x => if s.client x then ({ s with client := switch s.client x false }, [.option .wont x]) else (s, [])
  | .option .will x =>
    if s.server x then (s, [])
    else if c.yours x then ({ s with server := switch s.server x true }, [.option .do x])
    else (s, [.option .dont x])
  | .option .wont x => if s.server x then ({ s with server := switch s.server x false }, [.option .dont x]) else (s, [])
  | _ => (s, [])

/-- The same for several items. -/
def Client.receiveAll (c : Client) (s : InForce) : List Item → InForce × List Item
  | [] => (s, [])
  | i :: is => ((c.receiveAll (c.receive s i).1 is).1, (c.receive s i).2 ++ (c.receiveAll (c.receive s i).1 is).2)

/-- The client sends its answers, with characters typed by the user before, between and after them. -/
def Typed (answers items : List Item) : Prop := items.filter (fun i => match i with | .data _ => false | _ => true) = answers

/-- The answer that agrees to a request: DO to WILL, WILL to DO. -/
def Agreement : Verb × Byte → Item
  | (.will, x) => .option .do x
  | (_, x) => .option .will x

end Verif.Spec.Telnet
