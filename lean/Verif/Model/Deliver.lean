/-!
Telling subscribers: malcolm/core/notifier.py 61-128, malcolm/core/controller.py 129-153.

What subscribers are to be told is worked out with the lock of the block taken, and told when it has been released. Simplified: one
field, with subscriptions to the whole of it (the changes inside it are in Model/Notifier.lean). A callback may wait, so that other
threads go on before the next callback is called, and it may change the field itself.
-/
namespace Verif.Deliver

/-- A response to a subscription: core/response.py 15-74 -/
inductive Msg (V : Type)
  | update (v : V)
  | ret
  deriving DecidableEq, Repr

/-- The field, notifier.py 52-59. `left` has the callbacks that are still to be made, with the thread that will make them, a thread making its own in order;
`got` is what each subscription was told, `due` what it should have been told, `missed` what it will not be told, `raised` the
threads in which an exception was raised (these four are observations). -/
structure World (V : Type) where
  cur : V
  subs : List Nat := []
  left : List (Nat × Nat × Msg V) := []
  got : Nat → List (Msg V) := fun _ => []
  due : Nat → List (Msg V) := fun _ => []
  missed : Nat → List (Msg V) := fun _ => []
  raised : List Nat := []

variable {V : Type}

/-- What happens -/
inductive Ev (V : Type)
  /-- thread `t` changes the field: notifier.py 103-120 -/
  | change (t : Nat) (v : V)
  /-- thread `t` handles a Subscribe or Unsubscribe: controller.py 129-147 -/
  | subscribe (t s : Nat)
  | unsubscribe (t s : Nat)
  /-- thread `t` makes its next callback: notifier.py 122-128, controller.py 148-153 -/
  | call (t : Nat) (raises : Bool)

/-- What `l` has for subscription `s`: notifier.py 122-123 -/
def of (s : Nat) (l : List (Nat × Nat × Msg V)) : List (Msg V) :=
  l.filterMap (fun x => if x.2.1 = s then some x.2.2 else none)

/-- notifier.py 122-128, controller.py 148-153: the first callback that thread `t` has left is made. If it raises then so does the thread, whose
other callbacks are not made. -/
def call (w : World V) (t : Nat) (raises : Bool) : World V :=
  match w.left.find? (·.1 = t) with
  | none => w
  | some (_, s, m) =>
    let rest := w.left.eraseP (·.1 = t)
    let got := fun i => if i = s then w.got i ++ [m] else w.got i
    if raises then
      { w with got := got, left := rest.filter (·.1 ≠ t), raised := w.raised ++ [t],
               missed := fun i => w.missed i ++ of i (rest.filter (·.1 = t)) }
    else { w with got := got, left := rest }

/-- One event -/
def step (w : World V) : Ev V → World V
  -- notifier.py 112-117, 160-163
  | .change t v =>
    { w with cur := v, left := w.subs.map (fun s => (t, s, .update v)) ++ w.left,
             due := fun s => if s ∈ w.subs then w.due s ++ [.update v] else w.due s }
  -- notifier.py 61-65, 241-248
  | .subscribe t s =>
    if s ∈ w.subs then w
    else { w with subs := w.subs ++ [s], left := (t, s, .update w.cur) :: w.left,
                  due := fun i => if i = s then w.due i ++ [.update w.cur] else w.due i }
  -- notifier.py 67-71, 276-281
  | .unsubscribe t s =>
    if s ∈ w.subs then
      { w with subs := w.subs.erase s, left := (t, s, .ret) :: w.left,
               due := fun i => if i = s then w.due i ++ [.ret] else w.due i }
    else w
  | .call t raises => call w t raises

/-- A history: notifier.py 61-128 -/
def run (w : World V) (es : List (Ev V)) : World V := es.foldl step w

/-- notifier.py 52-59: nobody has subscribed -/
def init (v : V) : World V := { cur := v }

end Verif.Deliver
