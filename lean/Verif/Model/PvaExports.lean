/-!
Putting the exports of a block of another Malcolm over pvAccess: malcolm/modules/pva/controllers/pvaclientcomms.py
50-83 (`sync_proxy`), 124-148 (`send_put`). New exports change the structure of the block. The server then closes the
channel (pvaservercomms.py 171-195, 227-229), which can cut off the answer to the put, so that the client takes an error for
the sign of a new structure and waits for the block to be made anew.

Simplified: a block is its fields `F`; what is in the fields is C76. One monitor for a block (a second one is C76).
-/
namespace Verif.PvaExports

/-- What the server makes of a put: pvaservercomms.py 158-166 -/
inductive Verdict (F : Type)
  /-- the block has these fields now -/
  | accepted (fields : F)
  | refused (message : String)
  deriving DecidableEq, Repr

/-- pvaclientcomms.py 124-148: how a put ends for the caller of `send_put` -/
inductive Outcome
  | ok
  /-- RemoteError, with the message -/
  | error (message : String)
  /-- TimeoutError of the queue -/
  | timeout
  deriving DecidableEq, Repr

/-- Where a `send_put` is: pvaclientcomms.py 138-148 -/
inductive Phase
  /-- pvaclientcomms.py 139: in `self._ctxt.put` -/
  | sent
  /-- pvaclientcomms.py 145: in `self._queues[mri].get` -/
  | waiting
  /-- has ended; `waited` is whether it was in the `get` before -/
  | over (waited : Bool) (o : Outcome)
  deriving DecidableEq, Repr

/-- A call of `send_put`, pvaclientcomms.py 124-148: whether it is for `exports`, and what the server makes of it -/
structure Put (F : Type) where
  exports : Bool
  verdict : Verdict F
  phase : Phase
  deriving DecidableEq, Repr

/-- pvaclientcomms.py 58-60: what a client has of a block, with the block on the server and the puts -/
structure World (F : Type) where
  /-- the fields of the block on the server -/
  server : F
  /-- the server has closed the channel, and the client has not been told -/
  closing : Bool
  /-- those of the block of the client, since it was last made anew -/
  shown : F
  /-- `update_fields` is empty: pvaclientcomms.py 67, 74 -/
  fresh : Bool
  /-- how many Nones are in the queue of the block -/
  tokens : Nat
  /-- how often the block has been made anew -/
  made : Nat
  puts : List (Put F)
  deriving DecidableEq, Repr

/-- pvaclientcomms.py 50-83: `sync_proxy` has returned, having taken the None of the first value -/
def World.start {F : Type} (f : F) : World F :=
  { server := f, closing := false, shown := f, fresh := false, tokens := 0, made := 1, puts := [] }

/-- pvaclientcomms.py 62-79, 138-148: what happens -/
inductive Ev (F : Type)
  /-- the monitor tells of a disconnect, for whatever reason -/
  | disconnected
  /-- the monitor brings a value -/
  | value
  /-- a put is sent, and the server has handled it -/
  | send (exports : Bool) (verdict : Verdict F)
  /-- the answer to put `i` has come, or has been cut off -/
  | answer (i : Nat) (cut : Bool)
  /-- put `i` finds a None in the queue -/
  | take (i : Nat)
  /-- it has waited for ten seconds -/
  | giveUp (i : Nat)
  /-- somebody else has changed the fields on the server -/
  | elsewhere (fields : F)

/-- pvaclientcomms.py 140: the RemoteError of an answer that has been cut off -/
def cutOff : String := "disconnected"

/-- pvaclientcomms.py 138-148: the answer has come. A put of other attributes is answered as it is. -/
def answered {F : Type} (p : Put F) (cut : Bool) : Phase :=
  match p.verdict, cut with
  | .accepted _, false => .over false .ok
  | .accepted _, true => if p.exports then .waiting else .over false (.error cutOff)
  | .refused m, _ => if p.exports then .waiting else .over false (.error m)

/-- pvaclientcomms.py 62-79 (`callback`) and 138-148 -/
def World.step {F : Type} (w : World F) : Ev F → World F
  | .disconnected => { w with fresh := true, closing := false }
  | .value =>
    if w.closing then w
    else if w.fresh then { w with fresh := false, shown := w.server, tokens := w.tokens + 1, made := w.made + 1 }
    else w
  | .send exports verdict =>
    let w := { w with puts := w.puts ++ [{ exports := exports, verdict := verdict, phase := .sent }] }
    match exports, verdict with
    | true, .accepted f => { w with server := f, closing := true }
    | _, _ => w
  | .answer i cut =>
    match w.puts[i]? with
    | some p => if p.phase = .sent then { w with puts := w.puts.set i { p with phase := answered p cut } } else w
    | none => w
  | .take i =>
    match w.puts[i]? with
    | some p =>
      if p.phase = .waiting ∧ 0 < w.tokens then
        { w with tokens := w.tokens - 1, puts := w.puts.set i { p with phase := .over true .ok } }
      else w
    | none => w
  | .giveUp i =>
    match w.puts[i]? with
    | some p => if p.phase = .waiting then { w with puts := w.puts.set i { p with phase := .over true .timeout } } else w
    | none => w
  | .elsewhere f => { w with server := f, closing := true }

/-- any history -/
def World.run {F : Type} (w : World F) (es : List (Ev F)) : World F := es.foldl World.step w

end Verif.PvaExports
