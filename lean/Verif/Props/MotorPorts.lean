import Verif.Spec.MotorPorts
import Verif.Props.PmacUtil
import Verif.Props.Tags
/-!
C81: the assignment of a motor to a coordinate system.
-/
namespace Verif.Props.MotorPorts
open Verif Verif.PmacUtil Verif.MotorPorts Verif.Spec.MotorPorts

/-! ### what is shown -/

/-- the name of a port by its number, as a monitor gives it -/
def nameOf (ports : List Text) (i : Nat) : Text := if i = 0 then [] else ports.getD i []

def axisOf (a : Option Text) : Option Text := a.bind (fun a => if a ∈ axisNames then some a else none)

/-- what is shown of a port and an axis -/
def shownOf : Option Text → Option Text → Shown
  | some port, some axis => if port ≠ [] ∧ axis ≠ [] then ⟨port ++ ',' :: axis, false⟩ else ⟨[], false⟩
  | _, _ => ⟨[], true⟩

/-- The state agrees with what was told -/
structure Inv (r : Raw) (t : Told) : Prop where
  ports : r.ports = t.ports
  choices : r.choices = choicesOf t.ports
  port : r.port = t.port.map (nameOf t.ports)
  axis : r.axis = axisOf t.axis
  cs : r.cs = shownOf r.port r.axis
  ok : PortsOk t.ports
  range : ∀ i, t.port = some i → i < t.ports.length

theorem axisOf_mem {a : Option Text} {x : Text} (h : axisOf a = some x) : x ∈ axisNames := by
  cases a with
  | none => cases h
  | some a =>
    unfold axisOf at h
    simp only [Option.bind_some] at h
    split at h
    · cases h; assumption
    · cases h

theorem choice_mem {ports : List Text} {i : Nat} (h0 : 0 < i) (hi : i < ports.length) {a : Text} (ha : a ∈ axisNames) :
    ports.getD i [] ++ ',' :: a ∈ choicesOf ports := by
  unfold choicesOf
  refine List.mem_cons_of_mem _ (List.mem_flatMap.2 ⟨ports.getD i [], ?_, List.mem_map.2 ⟨a, ha, rfl⟩⟩)
  rw [List.getD_eq_getElem?_getD, List.getElem?_eq_getElem hi, Option.getD_some]
  cases ports with
  | nil => cases hi
  | cons p ps =>
    rw [List.drop_succ_cons, List.drop_zero]
    cases i with
    | zero => omega
    | succ i => rw [List.getElem_cons_succ]; exact List.getElem_mem _

/-- showing gives the agreement, and no exception -/
theorem showCs_inv {r : Raw} {t : Told} (hp : r.ports = t.ports) (hc : r.choices = choicesOf t.ports)
    (hport : r.port = t.port.map (nameOf t.ports)) (ha : r.axis = axisOf t.axis) (ok : PortsOk t.ports)
    (hr : ∀ i, t.port = some i → i < t.ports.length) : Inv (showCs r).raw t ∧ (showCs r).raised = false ∧
      (showCs r).raw = { r with cs := shownOf r.port r.axis } := by
  have key : (showCs r).raw = { r with cs := shownOf r.port r.axis } ∧ (showCs r).raised = false := by
    unfold showCs shownOf
    cases h1 : r.port with
    | none => simp [hc, choicesOf]
    | some port =>
      cases h2 : r.axis with
      | none => simp [hc, choicesOf]
      | some axis =>
        simp only
        by_cases h : port ≠ [] ∧ axis ≠ []
        · rw [if_pos h, if_pos h]
          have hm : port ++ ',' :: axis ∈ r.choices := by
            rw [hc]
            rw [h1] at hport
            rw [h2] at ha
            cases hi : t.port with
            | none => rw [hi] at hport; cases hport
            | some i =>
              rw [hi] at hport
              simp only [Option.map_some, Option.some.injEq] at hport
              unfold nameOf at hport
              by_cases h0 : i = 0
              · rw [if_pos h0] at hport
                exact absurd hport h.1
              · rw [if_neg h0] at hport
                rw [hport]
                exact choice_mem (by omega) (hr i hi) (axisOf_mem ha.symm)
          rw [if_pos hm]
          exact ⟨rfl, rfl⟩
        · rw [if_neg h, if_neg h]
          exact ⟨rfl, rfl⟩
  refine ⟨?_, key.2, key.1⟩
  rw [key.1]
  exact ⟨hp, hc, hport, ha, rfl, ok, hr⟩

theorem nameOf_getD {ports : List Text} {i : Nat} (h : i = 0 → ports.getD 0 [] = []) : ports.getD i [] = nameOf ports i := by
  unfold nameOf
  by_cases h0 : i = 0
  · subst h0; rw [h rfl]; rfl
  · rw [if_neg h0]

theorem outUpdate_inv {r : Raw} {t : Told} (h : Inv r t) (v : Option Text) : Inv (outUpdate v r).raw t := by
  unfold outUpdate
  split
  · exact (showCs_inv (r := { r with pmac := ⟨[], true⟩, axisNumber := none }) h.ports h.choices h.port h.axis h.ok h.range).1
  · split
    · exact h
    · split
      · exact ⟨h.ports, h.choices, h.port, h.axis, h.cs, h.ok, h.range⟩
      · refine (showCs_inv ?_ ?_ ?_ ?_ h.ok h.range).1
        · exact h.ports
        · exact h.choices
        · exact h.port
        · exact h.axis

theorem axisUpdate_inv {r : Raw} {t : Told} (hp : r.ports = t.ports) (hc : r.choices = choicesOf t.ports)
    (hport : r.port = t.port.map (nameOf t.ports)) (ok : PortsOk t.ports)
    (hr : ∀ i, t.port = some i → i < t.ports.length) (v : Option Text) :
    Inv (axisUpdate v r).raw { t with axis := v } ∧ (axisUpdate v r).raised = false := by
  unfold axisUpdate
  have := showCs_inv (r := { r with axis := match v with
    | some a => if a ∈ axisNames then some a else none
    | none => none }) (t := { t with axis := v }) hp hc hport (by cases v <;> rfl) ok hr
  exact ⟨this.1, this.2.1⟩

theorem andThen_ok {x : Res} {f : Raw → Res} (h : x.raised = false) : x.andThen f = f x.raw := by
  unfold Res.andThen
  rw [if_neg (by rw [h]; decide)]

theorem splitAt_none {c : Char} : ∀ {b : Text}, c ∉ b → PandABlock.splitAt c b = [b]
  | [], _ => rfl
  | x :: xs, h => by
    have hx : x ≠ c := fun e => h (e ▸ List.mem_cons_self)
    unfold PandABlock.splitAt
    rw [splitAt_none (fun hm => h (List.mem_cons_of_mem _ hm))]
    simp only [if_neg hx]

theorem splitAt_ne (c : Char) : ∀ b : Text, PandABlock.splitAt c b ≠ []
  | [] => by simp [PandABlock.splitAt]
  | x :: xs => by
    unfold PandABlock.splitAt
    split
    · simp
    · split <;> simp

theorem splitAt_cons {c : Char} : ∀ {a : Text}, c ∉ a → ∀ b, PandABlock.splitAt c (a ++ c :: b) = a :: PandABlock.splitAt c b
  | [], _, b => by
    show PandABlock.splitAt c (c :: b) = _
    rw [PandABlock.splitAt]
    split
    · rename_i h; exact absurd h (splitAt_ne c b)
    · rename_i h; rw [if_pos rfl, h]
  | x :: xs, h, b => by
    have hx : x ≠ c := fun e => h (e ▸ List.mem_cons_self)
    show PandABlock.splitAt c (x :: (xs ++ c :: b)) = _
    rw [PandABlock.splitAt, splitAt_cons (fun hm => h (List.mem_cons_of_mem _ hm))]
    simp only [if_neg hx]

theorem splitAt_two {c : Char} {a b : Text} (ha : c ∉ a) (hb : c ∉ b) : PandABlock.splitAt c (a ++ c :: b) = [a, b] := by
  rw [splitAt_cons ha, splitAt_none hb]

theorem axis_no_comma {a : Text} (h : a ∈ axisNames) : ',' ∉ a ∧ a ≠ [] := by
  revert a; decide

/-- What is sent for a choice: the number of a port with that name, and the axis -/
theorem target_choice {ports : List Text} (ok : PortsOk ports) {i : Nat} {a : Text} (h0 : 0 < i) (hi : i < ports.length)
    (ha : a ∈ axisNames) (rbPort : Nat) (rbAxis : Text) (r : Raw) (hr : r.ports = ports) :
    caput (ports.getD i [] ++ ',' :: a) rbPort rbAxis r =
      (match ports[rbPort]? with
      | none => ⟨{ r with sent := r.sent ++ [(ports.idxOf (ports.getD i []), a)] }, true⟩
      | some p => axisUpdate (some rbAxis) { r with sent := r.sent ++ [(ports.idxOf (ports.getD i []), a)], port := some p }) := by
  have hne : ports.getD i [] ++ ',' :: a ≠ [] := by simp
  have hm : ports.getD i [] ∈ r.ports := by
    rw [hr, List.getD_eq_getElem?_getD, List.getElem?_eq_getElem hi]; exact List.getElem_mem _
  unfold caput
  rw [if_pos hne, splitAt_two ((ok.2 i h0 hi).2) (axis_no_comma ha).1]
  rw [hr] at hm
  simp only [hr, if_pos hm]
  cases ports[rbPort]? <;> rfl

/-- Each event keeps the agreement, if the ports are such and port 0 has no name where it is told without a monitor. -/
theorem step_inv {r : Raw} {t : Told} (h : Inv r t) (e : Ev) (hs : Sound t e) (hz : Unassigns e → ZeroUnnamed (tell t e).ports) :
    Inv (step r e).raw (tell t e) := by
  cases e with
  | reconnect ports port axis out =>
    obtain ⟨hok, hlt⟩ := hs
    have hg : ports[port]? = some (ports.getD port []) := by
      rw [List.getD_eq_getElem?_getD, List.getElem?_eq_getElem hlt]; rfl
    show Inv (MotorPorts.reconnect ports port axis out r).raw _
    unfold MotorPorts.reconnect
    simp only [hg]
    have h1 := axisUpdate_inv (r := { r with monitored := false, ports, choices := choicesOf ports, port := some (ports.getD port []) })
      (t := ⟨ports, some port, none⟩) rfl rfl (by rw [nameOf_getD (ports := ports) (i := port) (fun h0 => hz h0)]; rfl) hok
      (fun i hi => by cases hi; exact hlt) (some axis)
    rw [andThen_ok h1.2]
    have h2 := outUpdate_inv h1.1 (some out)
    unfold Res.andThen
    split
    · exact h2
    · exact ⟨h2.ports, h2.choices, h2.port, h2.axis, h2.cs, h2.ok, h2.range⟩
  | port v =>
    show Inv (portUpdate v r).raw _
    unfold portUpdate
    split
    · exact (showCs_inv (r := { r with port := none }) (t := { t with port := none }) h.ports h.choices rfl h.axis h.ok
        (by intro i hi; cases hi)).1
    · exact (showCs_inv (r := { r with port := some [] }) (t := { t with port := some 0 }) h.ports h.choices rfl h.axis h.ok
        (fun i hi => hs i hi)).1
    · rename_i i hi0
      have hlt := hs i rfl
      have hg : r.ports[i]? = some (t.ports.getD i []) := by
        rw [h.ports, List.getD_eq_getElem?_getD, List.getElem?_eq_getElem hlt]; rfl
      simp only [hg]
      refine (showCs_inv (r := { r with port := some (t.ports.getD i []) }) (t := { t with port := some i }) h.ports h.choices ?_ h.axis
        h.ok (fun j hj => hs j hj)).1
      rw [nameOf_getD (fun h0 => absurd h0 hi0)]
      rfl
  | axis v => exact (axisUpdate_inv h.ports h.choices h.port h.ok h.range v).1
  | out v => exact outUpdate_inv h v
  | put value port axis =>
    show Inv (caput value port axis r).raw { t with port := some port, axis := some axis }
    obtain ⟨hlt, hch⟩ := hs
    have hg : t.ports[port]? = some (t.ports.getD port []) := by
      rw [List.getD_eq_getElem?_getD, List.getElem?_eq_getElem hlt]; rfl
    have fin : ∀ l, Inv (axisUpdate (some axis) { r with sent := l, port := some (t.ports.getD port []) }).raw
        { t with port := some port, axis := some axis } := fun l =>
      (axisUpdate_inv (r := { r with sent := l, port := some (t.ports.getD port []) }) (t := { t with port := some port })
        h.ports h.choices (by rw [nameOf_getD (ports := t.ports) (i := port) (fun h0 => hz h0)]; rfl) h.ok
        (fun i hi => by cases hi; exact hlt) (some axis)).1
    rcases hch with hv | ⟨i, a, h0, hi, ha, hv⟩
    · subst hv
      unfold caput
      rw [if_neg (by decide)]
      simp only [h.ports, hg]
      exact h.ports ▸ fin _
    · subst hv
      rw [target_choice h.ok h0 hi ha port axis r h.ports]
      simp only [hg]
      exact fin _

/-- What the invariant says a user sees -/
theorem inv_seen {r : Raw} {t : Told} (h : Inv r t) (ht : t.port = some 0 → ∀ a, t.axis = some a → a ∈ axisNames) : r.cs = t.seen := by
  rw [h.cs, h.port, h.axis]
  unfold Told.seen
  cases hp : t.port with
  | none => rfl
  | some i =>
    cases ha : t.axis with
    | none => rfl
    | some a =>
      show shownOf (some (nameOf t.ports i)) (if a ∈ axisNames then some a else none) = _
      by_cases h0 : i = 0
      · subst h0
        simp only [if_pos (ht hp a ha)]
        rfl
      · simp only [if_neg h0]
        by_cases hm : a ∈ axisNames
        · rw [if_pos hm, if_pos hm]
          unfold nameOf shownOf
          rw [if_neg h0]
          simp only []
          rw [if_pos ⟨(h.ok.2 i (by omega) (h.range i hp)).1, (axis_no_comma hm).2⟩]
        · rw [if_neg hm, if_neg hm]; rfl

theorem run_inv (evs : List Ev) : ∀ (r : Raw) (t : Told), Inv r t → SoundAll t evs →
    ((∀ e ∈ evs, ¬ Unassigns e) ∨ (ZeroUnnamed t.ports ∧ ∀ e ∈ evs, ∀ p n a o, e = .reconnect p n a o → ZeroUnnamed p)) →
    Inv (run r evs) (toldBy t evs) := by
  induction evs with
  | nil => intro r t h _ _; exact h
  | cons e evs ih =>
    intro r t h hs hz
    obtain ⟨hse, hs⟩ := hs
    have hu : Unassigns e → ZeroUnnamed (tell t e).ports := by
      intro hun
      rcases hz with hz | hz
      · exact absurd hun (hz e List.mem_cons_self)
      · cases e with
        | reconnect p n a o => exact hz.2 _ List.mem_cons_self p n a o rfl
        | _ => exact hz.1
    refine ih _ _ (step_inv h e hse hu) hs ?_
    rcases hz with hz | hz
    · exact .inl (fun e he => hz e (List.mem_cons_of_mem _ he))
    · refine .inr ⟨?_, fun e he => hz.2 e (List.mem_cons_of_mem _ he)⟩
      cases e with
      | reconnect p n a o => exact hz.2 _ List.mem_cons_self p n a o rfl
      | _ => exact hz.1

/-- a first reconnect gives the agreement -/
theorem first_inv {ports : List Text} {port : Nat} {axis out : Text} (hok : PortsOk ports) (hlt : port < ports.length)
    (hz : port = 0 → ZeroUnnamed ports) (r : Raw) : Inv (step r (.reconnect ports port axis out)).raw ⟨ports, some port, some axis⟩ := by
  have hg : ports[port]? = some (ports.getD port []) := by
    rw [List.getD_eq_getElem?_getD, List.getElem?_eq_getElem hlt]; rfl
  show Inv (MotorPorts.reconnect ports port axis out r).raw _
  unfold MotorPorts.reconnect
  simp only [hg]
  have h1 := axisUpdate_inv (r := { r with monitored := false, ports, choices := choicesOf ports, port := some (ports.getD port []) })
    (t := ⟨ports, some port, none⟩) rfl rfl (by rw [nameOf_getD (ports := ports) (i := port) (fun h0 => hz h0)]; rfl) hok
    (fun i hi => by cases hi; exact hlt) (some axis)
  rw [andThen_ok h1.2]
  have h2 := outUpdate_inv h1.1 (some out)
  unfold Res.andThen
  split
  · exact h2
  · exact ⟨h2.ports, h2.choices, h2.port, h2.axis, h2.cs, h2.ok, h2.range⟩

/-- A motor shows the port and the axis that its controller last told of, whatever was told before and in what order: by a reconnect, by
monitors of each of the three PVs, or read back after a put.

What is missing: it is proved if the first port has no name, or if a motor that is not assigned is told by a monitor only, and if a motor
that is not assigned has an axis yet. See `named_zero_refused`, `named_zero_shown`, `unassigned_invalid`. -/
theorem shown_told_partial (ports : List Text) (port : Nat) (axis out : Text) (evs : List Ev) (r : Raw)
    (hs : SoundAll ⟨[], none, none⟩ (.reconnect ports port axis out :: evs))
    (hz : (∀ e ∈ Ev.reconnect ports port axis out :: evs, ¬ Unassigns e) ∨
      ∀ p n a o, Ev.reconnect p n a o ∈ Ev.reconnect ports port axis out :: evs → ZeroUnnamed p)
    (ht : (toldBy ⟨[], none, none⟩ (.reconnect ports port axis out :: evs)).port = some 0 →
      ∀ a, (toldBy ⟨[], none, none⟩ (.reconnect ports port axis out :: evs)).axis = some a → a ∈ axisNames) :
    (run r (.reconnect ports port axis out :: evs)).cs = (toldBy ⟨[], none, none⟩ (.reconnect ports port axis out :: evs)).seen := by
  obtain ⟨⟨hok, hlt⟩, hs⟩ := hs
  refine inv_seen (run_inv evs _ _ (first_inv hok hlt ?_ r) hs ?_) ht
  · intro h0
    rcases hz with hz | hz
    · exact absurd h0 (hz _ List.mem_cons_self)
    · exact hz _ _ _ _ List.mem_cons_self
  · rcases hz with hz | hz
    · exact .inl (fun e he => hz e (List.mem_cons_of_mem _ he))
    · exact .inr ⟨hz _ _ _ _ List.mem_cons_self, fun e he p n a o h => hz p n a o (h ▸ List.mem_cons_of_mem _ he)⟩

def somePorts : List Text := [[], ['C','S','1'], ['C','S','2']]
def someOut : Text := "@asyn(BRICK2CS1, 7)".toList

example : (run {} [.reconnect somePorts 2 ['A'] someOut, .axis (some ['B']), .port (some 0), .port (some 1),
      .put "CS2,Z".toList 2 ['Z'], .out none]).cs = ⟨"CS2,Z".toList, false⟩ := by
  refine Eq.trans (shown_told_partial _ _ _ _ _ _ ?_ ?_ ?_) ?_
  · refine ⟨⟨⟨by decide, ?_⟩, by decide⟩, trivial, ?_, ?_, ⟨by decide, .inr ⟨2, ['Z'], by decide, by decide, by decide, by decide⟩⟩, trivial, trivial⟩
    · intro i h0 hi
      match i, h0, hi with
      | 1, _, _ => decide
      | 2, _, _ => decide
    · intro i hi; cases hi; decide
    · intro i hi; cases hi; decide
  · right
    intro p n a o h
    simp only [List.mem_cons, Ev.reconnect.injEq, reduceCtorEq, List.not_mem_nil, or_false] at h
    rw [h.1]; rfl
  · decide
  · decide

/-! ### putting -/

theorem showCs_sent (r : Raw) : (showCs r).raw.sent = r.sent := by
  unfold showCs
  split
  · split
    · split <;> rfl
    · rfl
  · rfl

/-- A put of a port and an axis sends, once and as the only thing, the number of that port and that axis; and if the controller then
reads back what was sent, that is what is shown, without an alarm and without an exception. -/
theorem put_assigns {r : Raw} {t : Told} (h : Inv r t) (hn : t.ports.Nodup) (i : Nat) (h0 : 0 < i) (hi : i < t.ports.length) (a : Text)
    (ha : a ∈ axisNames) :
    (∀ rbPort rbAxis, rbPort < t.ports.length →
      (step r (.put (t.ports.getD i [] ++ ',' :: a) rbPort rbAxis)).raw.sent = r.sent ++ [(i, a)]) ∧
    (step r (.put (t.ports.getD i [] ++ ',' :: a) i a)).raised = false ∧
    (step r (.put (t.ports.getD i [] ++ ',' :: a) i a)).raw.cs = ⟨t.ports.getD i [] ++ ',' :: a, false⟩ := by
  have hidx : t.ports.idxOf (t.ports.getD i []) = i := by
    rw [List.getD_eq_getElem?_getD, List.getElem?_eq_getElem hi, Option.getD_some]
    exact hn.idxOf_getElem i hi
  refine ⟨?_, ?_, ?_⟩
  · intro rbPort rbAxis hlt
    show (caput _ rbPort rbAxis r).raw.sent = _
    rw [target_choice h.ok h0 hi ha rbPort rbAxis r h.ports, hidx, List.getElem?_eq_getElem hlt]
    exact showCs_sent _
  · show (caput _ i a r).raised = false
    have hg : t.ports[i]? = some (t.ports.getD i []) := by
      rw [List.getD_eq_getElem?_getD, List.getElem?_eq_getElem hi]; rfl
    rw [target_choice h.ok h0 hi ha i a r h.ports, hg]
    exact (axisUpdate_inv (r := { r with sent := _, port := some (t.ports.getD i []) }) (t := { t with port := some i })
        h.ports h.choices (by rw [nameOf_getD (ports := t.ports) (i := i) (fun h0' => by omega)]; rfl) h.ok
        (fun i hi' => by cases hi'; exact hi) (some a)).2
  · have := inv_seen (step_inv h (.put (t.ports.getD i [] ++ ',' :: a) i a) ⟨hi, .inr ⟨i, a, h0, hi, ha, rfl⟩⟩ (fun hu => by
      have : i = 0 := hu
      omega)) (fun hp => by
      have : some i = some 0 := hp
      have := Option.some.inj this
      omega)
    rw [this]
    unfold Told.seen
    simp only [tell]
    rw [if_neg (by omega), if_pos ha]

example : (step (step {} (.reconnect somePorts 2 ['A'] someOut)).raw (.put "CS1,X".toList 1 ['X'])).raw.sent = [(1, ['X'])] ∧
    (step (step {} (.reconnect somePorts 2 ['A'] someOut)).raw (.put "CS1,X".toList 1 ['X'])).raw.cs = ⟨"CS1,X".toList, false⟩ := by
  have ok : PortsOk somePorts := ⟨by decide, by
    intro i h0 hi
    match i, h0, hi with
    | 1, _, _ => decide
    | 2, _, _ => decide⟩
  have h := put_assigns (first_inv (axis := ['A']) (out := someOut) (port := 2) ok (by decide) (fun h => by omega) {}) (by decide) 1 (by decide)
    (by decide) ['X'] (by decide)
  exact ⟨h.1 1 ['X'] (by decide), h.2.2⟩

/-- A put of nothing sends port 0. -/
theorem put_unassigns (r : Raw) (rbPort : Nat) (rbAxis : Text) (hlt : rbPort < r.ports.length) :
    (step r (.put [] rbPort rbAxis)).raw.sent = r.sent ++ [(0, [])] := by
  show (caput [] rbPort rbAxis r).raw.sent = _
  unfold caput
  rw [if_neg (by decide)]
  simp only [List.getElem?_eq_getElem hlt]
  exact showCs_sent _

/-- What is put is one of the choices the attribute offers, which are these: nothing, and each port but the first with each axis -/
theorem choices_iff {r : Raw} {t : Told} (h : Inv r t) (value : Text) : value ∈ r.choices ↔ Choice t.ports value := by
  rw [h.choices]
  unfold choicesOf Choice
  simp only [List.mem_cons, List.mem_flatMap, List.mem_map]
  constructor
  · rintro (h | ⟨p, hp, a, ha, rfl⟩)
    · exact .inl h
    · obtain ⟨j, hj, rfl⟩ := List.mem_iff_getElem.1 hp
      rw [List.length_drop] at hj
      refine .inr ⟨1 + j, a, by omega, by omega, ha, ?_⟩
      rw [List.getElem_drop, List.getD_eq_getElem?_getD, List.getElem?_eq_getElem (by omega)]
      rfl
  · rintro (h | ⟨i, a, h0, hi, ha, rfl⟩)
    · exact .inl h
    · refine .inr ⟨_, ?_, a, ha, rfl⟩
      rw [List.getD_eq_getElem?_getD, List.getElem?_eq_getElem hi, Option.getD_some]
      refine List.mem_iff_getElem.2 ⟨i - 1, by rw [List.length_drop]; omega, ?_⟩
      rw [List.getElem_drop]
      congr 1
      omega

/-! ### the link to the coordinate system -/

/-- The value that joins a motor to a source port names one coordinate system and one axis: two that are shown alike are the same. -/
theorem link_unique {p q a b : Text} (hp : ',' ∉ p) (hq : ',' ∉ q) (h : p ++ ',' :: a = q ++ ',' :: b) : p = q ∧ a = b := by
  have h1 := (Props.PmacUtil.splitComma_spec (p ++ ',' :: a) p a).2 ⟨rfl, hp⟩
  have h2 := (Props.PmacUtil.splitComma_spec (p ++ ',' :: a) q b).2 ⟨h, hq⟩
  rw [h1] at h2
  cases h2
  exact ⟨rfl, rfl⟩

/-- The axis of a coordinate system whose source port a motor is linked to, by the values they have, is the port and the axis that the
motor was assigned to, and no other: `p` and `b` are the port and the axis of the coordinate system, `old` are tags without a sink port. -/
theorem linked_iff {t : Told} (i : Nat) (a p b : Text) (hp : ',' ∉ p ∧ ':' ∉ p ∧ '\n' ∉ p) (hb : b ∈ axisNames) (hi : 0 < i)
    (hlt : i < t.ports.length) (hok : PortsOk t.ports) (ht : t.port = some i) (ha : t.axis = some a) (ham : a ∈ axisNames)
    (old : List Text) (hold : ∀ x ∈ old, ¬ Tags.sinkPre <+: x) :
    Tags.portTagDetails (sourceTags old p b) = .found true .motor t.seen.value ↔ p = t.ports.getD i [] ∧ b = a := by
  have hseen : t.seen.value = t.ports.getD i [] ++ ',' :: a := by
    unfold Told.seen
    rw [ht]
    simp only [ha]
    rw [if_neg (by omega), if_pos ham]
  have hb2 : ':' ∉ b ∧ '\n' ∉ b := by revert b; decide
  unfold sourceTags
  rw [Props.Tags.with_source_read .motor old (p ++ ',' :: b) (by simp [hp.2.1, hb2.1]) (by simp [hp.2.2, hb2.2]) hold, hseen]
  constructor
  · intro h
    injection h with _ _ h
    exact link_unique hp.1 (hok.2 i hi hlt).2 h
  · rintro ⟨rfl, rfl⟩; rfl

/-! ### where it is not so -/

/-- Where the first port has a name (ANYTHING in the tests of the repository), a motor that is not assigned and was in axis A before:
the reconnect ends with an exception, no monitor is set up, and what is shown is not that it is not assigned -/
theorem named_zero_refused : ∃ ports port axis out, PortsOk ports ∧ port < ports.length ∧
    (step {} (.reconnect ports port axis out)).raised = true ∧ (step {} (.reconnect ports port axis out)).raw.monitored = false := by
  refine ⟨["ANYTHING".toList, ['C','S','1']], 0, ['A'], someOut, ⟨by decide, ?_⟩, by decide, by decide +kernel, by decide +kernel⟩
  intro i h0 hi
  match i, h0, hi with
  | 1, _, _ => decide

/-- ... and after a put of nothing the old assignment is still shown -/
theorem named_zero_shown : ∃ ports evs, PortsOk ports ∧ SoundAll ⟨[], none, none⟩ evs ∧
    evs.getLast? = some (.put [] 0 ['A']) ∧ (run {} evs).cs = ⟨"CS1,A".toList, false⟩ ∧ (toldBy ⟨ports, none, none⟩ evs).port = some 0 := by
  refine ⟨["ANYTHING".toList, ['C','S','1']], [.reconnect ["ANYTHING".toList, ['C','S','1']] 1 ['A'] someOut, .put [] 0 ['A']], ?_,
    ⟨⟨?_, by decide⟩, ⟨by decide, .inl rfl⟩, trivial⟩, rfl, by decide +kernel, rfl⟩ <;>
  · refine ⟨by decide, ?_⟩
    intro i h0 hi
    match i, h0, hi with
    | 1, _, _ => decide

/-- A put of nothing sends an empty axis: where that is read back, a motor that is not assigned is shown with an invalid alarm -/
theorem unassigned_invalid : ∃ ports evs, PortsOk ports ∧ ZeroUnnamed ports ∧ SoundAll ⟨[], none, none⟩ evs ∧
    evs.getLast? = some (.put [] 0 []) ∧ (run {} evs).cs = ⟨[], true⟩ ∧ (toldBy ⟨ports, none, none⟩ evs).seen = ⟨[], false⟩ := by
  refine ⟨somePorts, [.reconnect somePorts 1 ['A'] someOut, .put [] 0 []], ?_, rfl,
    ⟨⟨?_, by decide⟩, ⟨by decide, .inl rfl⟩, trivial⟩, rfl, by decide +kernel, by decide +kernel⟩ <;>
  · refine ⟨by decide, ?_⟩
    intro i h0 hi
    match i, h0, hi with
    | 1, _, _ => decide
    | 2, _, _ => decide

/-! ### the OUT field -/

theorem dropWhile_id {α} {f : α → Bool} : ∀ {l : List α}, (∀ x, l.head? = some x → f x = false) → l.dropWhile f = l
  | [], _ => rfl
  | x :: xs, h => by rw [List.dropWhile_cons_of_neg]; simp [h x rfl]

theorem strip_id {t : Text} (h : ' ' ∉ t) : MotorPorts.strip t = t := by
  unfold MotorPorts.strip
  rw [dropWhile_id (l := t), dropWhile_id (l := t.reverse), List.reverse_reverse]
  · intro x hx
    have : x ∈ t := List.mem_reverse.1 (List.mem_of_mem_head? hx)
    simp only [decide_eq_false_iff_not]
    rintro rfl; exact h this
  · intro x hx
    have : x ∈ t := List.mem_of_mem_head? hx
    simp only [decide_eq_false_iff_not]
    rintro rfl; exact h this

theorem strip_spaces (n : Nat) (t : Text) : MotorPorts.strip (List.replicate n ' ' ++ t) = MotorPorts.strip t := by
  induction n with
  | zero => rfl
  | succ n ih => rw [← ih, List.replicate_succ]; rfl

theorem rstripParen_paren {t : Text} (h : ')' ∉ t) : rstripParen (t ++ [')']) = t := by
  unfold rstripParen
  rw [List.reverse_append]
  show (List.dropWhile _ (')' :: t.reverse)).reverse = t
  rw [List.dropWhile_cons_of_pos (by decide), dropWhile_id, List.reverse_reverse]
  intro x hx
  have : x ∈ t := List.mem_reverse.1 (List.mem_of_mem_head? hx)
  simp only [decide_eq_false_iff_not]
  rintro rfl; exact h this

/-- letters that a port or number is made of -/
def Plain (t : Text) : Prop := '(' ∉ t ∧ ')' ∉ t ∧ ',' ∉ t ∧ ' ' ∉ t

/-- `"@asyn(PORT,num)"`, also with spaces after the comma, is read as the port and the number -/
theorem parse_out (pre port num : Text) (n : Nat) (hpre : '(' ∉ pre) (hp : Plain port) (hn : Plain num) :
    parseOut (pre ++ '(' :: (port ++ ',' :: (List.replicate n ' ' ++ num) ++ [')'])) = some (port, some num) := by
  have h1 : '(' ∉ port ++ ',' :: (List.replicate n ' ' ++ num) ++ [')'] := by
    simp [hp.1, hn.1]
  have h2 : ')' ∉ port ++ ',' :: (List.replicate n ' ' ++ num) := by
    simp [hp.2.1, hn.2.1]
  have h3 : ',' ∉ List.replicate n ' ' ++ num := by simp [hn.2.2.1]
  unfold parseOut
  rw [splitAt_two hpre h1]
  simp only [List.getElem?_cons_succ, List.getElem?_cons_zero]
  rw [rstripParen_paren h2, splitAt_two hp.2.2.1 h3]
  simp [strip_id hp.2.2.2, strip_spaces, strip_id hn.2.2.2]

theorem plain_digits (n : Nat) : Plain (Nat.toDigits 10 n) := by
  have h : ∀ c, c ∈ Nat.toDigits 10 n → c.isDigit = true := fun c hc => Nat.isDigit_of_mem_toDigits (by decide) (by decide) hc
  refine ⟨fun hc => ?_, fun hc => ?_, fun hc => ?_, fun hc => ?_⟩ <;> exact absurd (h _ hc) (by decide)

theorem read_digits (n : Nat) : Tags.readInt (Nat.toDigits 10 n) = some (n : Int) := Props.Tags.readInt_digits n

theorem showCs_out (r : Raw) : (showCs r).raw.pmac = r.pmac ∧ (showCs r).raw.axisNumber = r.axisNumber := by
  unfold showCs
  split
  · split
    · split <;> exact ⟨rfl, rfl⟩
    · exact ⟨rfl, rfl⟩
  · exact ⟨rfl, rfl⟩

/-- the OUT field of a motor record, as areas of EPICS write it: a link to axis `n` of `port`, with `k` spaces after the comma -/
def outField (port : Text) (k n : Nat) : Text := "@asyn".toList ++ '(' :: (port ++ ',' :: (List.replicate k ' ' ++ Nat.toDigits 10 n) ++ [')'])

example : outField "BRICK2".toList 1 7 = "@asyn(BRICK2, 7)".toList := by decide

/-- A raw motor shows the port of its controller and the number it has there -/
theorem out_shown (port : Text) (k n : Nat) (hp : Plain port) (r : Raw) :
    (step r (.out (some (outField port k n)))).raw.pmac = ⟨port, false⟩ ∧
    (step r (.out (some (outField port k n)))).raw.axisNumber = some (n : Int) := by
  show (outUpdate _ r).raw.pmac = _ ∧ (outUpdate _ r).raw.axisNumber = _
  unfold outUpdate outField
  simp only [parse_out _ port _ k (show '(' ∉ "@asyn".toList by decide) hp (plain_digits n), Option.bind_some, read_digits]
  exact showCs_out _

/-- A reset of a controller with such ports and such an OUT field succeeds, and monitors are set up -/
theorem reset_monitors {ports : List Text} {i : Nat} {axis port : Text} {k n : Nat} (hok : PortsOk ports) (hlt : i < ports.length)
    (hz : i = 0 → ZeroUnnamed ports) (hp : Plain port) (r : Raw) :
    (step r (.reconnect ports i axis (outField port k n))).raised = false ∧
    (step r (.reconnect ports i axis (outField port k n))).raw.monitored = true := by
  have hg : ports[i]? = some (ports.getD i []) := by
    rw [List.getD_eq_getElem?_getD, List.getElem?_eq_getElem hlt]; rfl
  show (MotorPorts.reconnect ports i axis _ r).raised = false ∧ (MotorPorts.reconnect ports i axis _ r).raw.monitored = true
  unfold MotorPorts.reconnect
  simp only [hg]
  have h1 := axisUpdate_inv (r := { r with monitored := false, ports, choices := choicesOf ports, port := some (ports.getD i []) })
    (t := ⟨ports, some i, none⟩) rfl rfl (by rw [nameOf_getD (ports := ports) (i := i) (fun h0 => hz h0)]; rfl) hok
    (fun i hi => by cases hi; exact hlt) (some axis)
  rw [andThen_ok h1.2, andThen_ok]
  · exact ⟨rfl, rfl⟩
  · unfold outUpdate outField
    simp only [parse_out _ port _ k (show '(' ∉ "@asyn".toList by decide) hp (plain_digits n), Option.bind_some, read_digits]
    refine (showCs_inv (t := { ports, port := some i, axis := some axis }) ?_ ?_ ?_ ?_ h1.1.ok h1.1.range).2.1
    · exact h1.1.ports
    · exact h1.1.choices
    · exact h1.1.port
    · exact h1.1.axis

example : (step {} (.reconnect somePorts 0 ['A'] (outField "BRICK".toList 1 7))).raw.monitored = true :=
  (reset_monitors (ports := somePorts) ⟨by decide, by
    intro i h0 hi
    match i, h0, hi with
    | 1, _, _ => decide
    | 2, _, _ => decide⟩ (by decide) (fun _ => rfl) (by unfold Plain; decide) {}).2

/-- A compound motor shows the port of its coordinate system and its axis there, A is 1 and Z is 9 -/
theorem compound_shown (port : Text) (k n : Nat) (hp : Plain port) (a : Text) (h1 : 1 ≤ n) (ha : csAxisNames[n - 1]? = some a) :
    compound (some (outField port k n)) = some ⟨port ++ ',' :: a, false⟩ := by
  unfold compound outField
  simp only [parse_out _ port _ k (show '(' ∉ "@asyn".toList by decide) hp (plain_digits n), Option.bind_some, read_digits]
  rw [if_neg (by omega), show ((n : Int) - 1).toNat = n - 1 by omega, ha]

/-- ... a number past Z is refused -/
theorem compound_refused (port : Text) (k n : Nat) (hp : Plain port) (h : 9 < n) : compound (some (outField port k n)) = none := by
  unfold compound outField
  simp only [parse_out _ port _ k (show '(' ∉ "@asyn".toList by decide) hp (plain_digits n), Option.bind_some, read_digits]
  have : csAxisNames[n - 1]? = none := List.getElem?_eq_none (by show csAxisNames.length ≤ n - 1; have : csAxisNames.length = 9 := rfl; omega)
  rw [if_neg (by omega), show ((n : Int) - 1).toNat = n - 1 by omega, this]

/-- but number 0, which no axis has, is shown as Z -/
theorem compound_zero : compound (some "@asyn(CS1,0)".toList) = some ⟨"CS1,Z".toList, false⟩ := by decide +kernel

example : compound (some "@asyn(CS1,3)".toList) = some ⟨"CS1,C".toList, false⟩ :=
  compound_shown "CS1".toList 0 3 (by unfold Plain; decide) ['C'] (by decide) rfl

end Verif.Props.MotorPorts
