/-!
How the PandA client matches replies to requests: malcolm/modules/pandablocks/pandablocksclient.py 95-179.

Simplifications. A request is known by an identifier of the queue its sender waits on. The send loop takes requests in
the order in which they were put on its queue, so putting and sending one is one step; requests of several threads are
any interleaving of such steps. A request whose sender has timed out stays in line, as in the code.
-/
namespace Verif.PandAClient

/-- A line without its newline -/
abbrev Line := List Char

/-- What is put on the queue of the sender: pandablocksclient.py 163-173 -/
inductive Resp
  | line (l : Line)
  | lines (ls : List Line)
  | error (l : Line)
  deriving DecidableEq, Repr

/-- The state of the receive loop: pandablocksclient.py 25-62, 155-157. `waiting` is `_response_queues`; `delivered`
what has been put on the queues of the senders so far, oldest first; `dead` that the loop has ended -/
structure Loop (Id : Type) where
  acc : List Line := []
  multi : Option Bool := none
  waiting : List Id := []
  delivered : List (Id × Resp) := []
  dead : Bool := false

variable {Id : Type}

/-- pandablocksclient.py 146-151, `_respond`: if nobody waits, the `get` times out and the loop ends -/
def respond (s : Loop Id) (r : Resp) : Loop Id :=
  match s.waiting with
  | [] => { s with dead := true }
  | i :: rest => { s with waiting := rest, delivered := s.delivered ++ [(i, r)], acc := [], multi := none }

/-- `line.startswith(prefix)` -/
def startsWith (p l : Line) : Bool := p.isPrefixOf l

/-- pandablocksclient.py 161-179: what the receive loop does with one line -/
def onLine (s : Loop Id) (line : Line) : Loop Id :=
  if s.dead then s
  else
    let multi := match s.multi with
      | none => startsWith ['!'] line || line == ['.']
      | some m => m
    let s := { s with multi := some multi }
    if startsWith ['E', 'R', 'R'] line then respond s (.error line)
    else if multi then
      if line = ['.'] then respond s (.lines s.acc)
      else match line with
        | '!' :: rest => { s with acc := s.acc ++ [rest] }
        | _ => { s with dead := true }
    else respond s (.line line)

/-- `buf.split("\n")` -/
def splitLines : List Char → List Line
  | [] => [[]]
  | c :: cs =>
    if c = '\n' then [] :: splitLines cs
    else match splitLines cs with
      | l :: ls => (c :: l) :: ls
      | [] => [[c]]

/-- The client: the receive loop and the text held in `_get_lines` -/
structure Client (Id : Type) where
  loop : Loop Id := {}
  buf : List Char := []

/-- pandablocksclient.py 133-144, `_get_lines`, and the loop of 158-173: what is done with one piece of text -/
def recvText (s : Client Id) (text : List Char) : Client Id :=
  let ls := splitLines (s.buf ++ text)
  { loop := ls.dropLast.foldl onLine s.loop
    buf := ls.getLastD [] }

/-- A continuation byte of UTF-8 -/
def cont (b : Nat) : Bool := 0x80 ≤ b && b < 0xC0

/-- `bytes.decode("utf-8")`: none if it raises UnicodeDecodeError -/
def decode : List Nat → Option (List Char)
  | [] => some []
  | b :: rest =>
    if b < 0x80 then (decode rest).map (Char.ofNat b :: ·)
    else match rest with
      | c :: rest2 =>
        if 0xC2 ≤ b && b < 0xE0 && cont c then (decode rest2).map (Char.ofNat ((b - 0xC0) * 64 + (c - 0x80)) :: ·)
        else match rest2 with
          | d :: rest3 =>
            let v := (b - 0xE0) * 4096 + (c - 0x80) * 64 + (d - 0x80)
            if 0xE0 ≤ b && b < 0xF0 && cont c && cont d && 0x800 ≤ v && !(0xD800 ≤ v && v < 0xE000) then
              (decode rest3).map (Char.ofNat v :: ·)
            else match rest3 with
              | e :: rest4 =>
                let v := (b - 0xF0) * 262144 + (c - 0x80) * 4096 + (d - 0x80) * 64 + (e - 0x80)
                if 0xF0 ≤ b && b < 0xF5 && cont c && cont d && cont e && 0x10000 ≤ v && v < 0x110000 then
                  (decode rest4).map (Char.ofNat v :: ·)
                else none
              | [] => none
          | [] => none
      | [] => none

/-- What can happen -/
inductive Op (Id : Type)
  /-- pandablocksclient.py 95-98 and 121-129: a request is sent -/
  | send (i : Id)
  /-- the same, but `sendall` raises, which is logged only (130-131) -/
  | sendFails (i : Id)
  /-- bytes come in from `recv`; none at all if the connection is closed -/
  | recv (bytes : List Nat)

/-- One step -/
def step (s : Client Id) : Op Id → Client Id
  | .send i => { s with loop := { s.loop with waiting := s.loop.waiting ++ [i] } }
  | .sendFails i => { s with loop := { s.loop with waiting := s.loop.waiting ++ [i] } }
  | .recv bytes =>
    if s.loop.dead then s
    else if bytes = [] then { s with loop := { s.loop with dead := true } }
    else match decode bytes with
      | none => { s with loop := { s.loop with dead := true } }
      | some text => recvText s text

/-- Any number of steps -/
def run (s : Client Id) (ops : List (Op Id)) : Client Id := ops.foldl step s

end Verif.PandAClient
