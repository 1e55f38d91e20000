import Verif.Model.PyDict
/-!
Get and Post over HTTP: malcolm/modules/web/parts/restfulserverpart.py 16-65, with
malcolm/modules/web/controllers/httpservercomms.py 79-88, malcolm/modules/web/util.py 34-36,
malcolm/core/process.py 189-208 and malcolm/core/controller.py 124-153.

Simplified: a handler is numbered by the order of arrival. What tornado does is taken from its documentation: a handler
is made for each request; the callbacks of the loop are run in order; an exception in `get` or `post` gives a reply 500.
What the controllers do to the blocks is a parameter, that each Get and Post gives one response is C15.
-/
namespace Verif.Rest

abbrev Text := List Char

/-- core/request.py `Get` and `Post`, as made in restfulserverpart.py 28 and 39; no parameters: a Get -/
structure Request (J : Type) where
  path : List Text
  params : Option J

/-- core/response.py, as told apart in restfulserverpart.py 56-63 -/
inductive Response (J : Type)
  | ret (v : J)
  | error (message : Text)
  | other

/-- What is written to the client: a body, or status 500 with or without a reason -/
inductive Reply
  | ok (body : Text)
  | failed (reason : Option Text)
  deriving DecidableEq, Repr

/-- What the rest of the system does: which blocks there are, what a controller does with a request, JSON -/
structure Env (W J : Type) where
  known : W → Text → Bool
  handle : W → Request J → W × Response J
  decode : Text → Option J
  encode : J → Option Text

/-- restfulserverpart.py 16-22 `RestfulHandler`. `url` and `body` are what it was made for, `waiting` says that it is at
the yield of 30 or 41 -/
structure Handler (J : Type) where
  url : Text
  body : Option Text
  queue : List (Response J)
  waiting : Bool
  replies : List Reply

/-- `callbacks`: what httpservercomms.py 88 leaves for cothread; `threads`: process.py 202, what has been spawned;
`loop`: util.py 36, what the loop is to call. `log` is not in the code: what controllers were given, with the blocks
as they were, and what they answered. -/
structure State (W J : Type) where
  world : W
  running : Bool := true
  handlers : List (Handler J) := []
  callbacks : List (Nat × Request J) := []
  threads : List (Nat × Request J) := []
  loop : List (Nat × Response J) := []
  log : List (Nat × Request J × W × Response J) := []

/-- restfulserverpart.py 27, 37 `endpoint_str.split("/")` -/
def split : Text → List Text
  | [] => [[]]
  | c :: cs =>
    if c = '/' then [] :: split cs
    else match split cs with
      | [] => [[c]]
      | e :: es => (c :: e) :: es

/-- restfulserverpart.py 54-65 `handle_response`; `none` from `encode` is an exception of json_encode -/
def render {W J} (env : Env W J) : Response J → Reply
  | .ret v => match env.encode v with
    | some t => .ok (t ++ ['\n'])
    | none => .failed none
  | .error m => .failed (some m)
  | .other => .failed (some "Unknown response".toList)

/-- restfulserverpart.py 24-29 and 35-40: the request made, `none` if the body is not JSON -/
def makeRequest {W J} (env : Env W J) (url : Text) (body : Option Text) : Option (Request J) :=
  match body with
  | none => some ⟨split url, none⟩
  | some b => match env.decode b with
    | some v => some ⟨split url, some v⟩
    | none => none

/-- httpservercomms.py 82-87: there is a controller for it -/
def accepted {W J} (env : Env W J) (w : W) (r : Request J) : Bool :=
  match r.path with
  | [] => false
  | mri :: _ => decide (mri = ['.']) || env.known w mri

/-- restfulserverpart.py 44-48 with httpservercomms.py 79-88: a request of a client -/
def arrive {W J} (env : Env W J) (s : State W J) (url : Text) (body : Option Text) : State W J :=
  match makeRequest env url body with
  | none => { s with handlers := s.handlers ++ [⟨url, body, [], false, [.failed none]⟩] }
  | some r =>
    if accepted env s.world r then
      { s with handlers := s.handlers ++ [⟨url, body, [], true, []⟩]
               callbacks := s.callbacks ++ [(s.handlers.length, r)] }
    else { s with handlers := s.handlers ++ [⟨url, body, [], false, [.failed none]⟩] }

/-- controller.py 124-127 with process.py 201-202: cothread runs the next callback; the assertion fails if the process
is stopped -/
def callback {W J} (s : State W J) : State W J :=
  match s.callbacks with
  | [] => s
  | c :: cs => if s.running then { s with callbacks := cs, threads := s.threads ++ [c] } else { s with callbacks := cs }

/-- controller.py 129-153 with restfulserverpart.py 50-52: one of the threads runs, in any order -/
def run {W J} (env : Env W J) (s : State W J) (i : Nat) : State W J :=
  match s.threads[i]? with
  | none => s
  | some (h, r) =>
    let (w, a) := env.handle s.world r
    { s with world := w, threads := s.threads.eraseIdx i, loop := s.loop ++ [(h, a)],
             log := s.log ++ [(h, r, s.world, a)] }

/-- util.py 36: the loop calls `queue.put` -/
def tick {W J} (s : State W J) : State W J :=
  match s.loop with
  | [] => s
  | (h, a) :: l => { s with loop := l, handlers := s.handlers.modify h (fun x => { x with queue := x.queue ++ [a] }) }

/-- restfulserverpart.py 30-31, 41-42: the handler goes on -/
def resumed {W J} (env : Env W J) (x : Handler J) : Handler J :=
  if x.waiting then
    match x.queue with
    | [] => x
    | a :: q => { x with queue := q, waiting := false, replies := x.replies ++ [render env a] }
  else x

/-- restfulserverpart.py 30-31, 41-42 -/
def resume {W J} (env : Env W J) (s : State W J) (h : Nat) : State W J :=
  { s with handlers := s.handlers.modify h (resumed env) }

inductive Event (W : Type)
  | arrive (url : Text) (body : Option Text)
  | callback
  | run (i : Nat)
  | tick
  | resume (h : Nat)
  /-- whatever else happens to the blocks -/
  | change (w : W)
  /-- core/process.py 201: the process is stopped -/
  | stop

/-- one step of the system -/
def step {W J} (env : Env W J) (s : State W J) : Event W → State W J
  | .arrive u b => arrive env s u b
  | .callback => callback s
  | .run i => run env s i
  | .tick => tick s
  | .resume h => resume env s h
  | .change w => { s with world := w }
  | .stop => { s with running := false }

/-- a history -/
def runs {W J} (env : Env W J) (s : State W J) (es : List (Event W)) : State W J := es.foldl (step env) s

end Verif.Rest
