import Verif.Spec.PvaLife
import Verif.Proofs.PyDict
/-!
C123. Malcolm's pvAccess server serves when its block says Ready and not when it says Disabled; a copy of a block of another Malcolm whose health is
OK shows the block as it is there.
-/
namespace Verif.Props.PvaLife
open Verif Verif.PvaLife Verif.Spec.PvaLife

/-! ### the server -/

theorem run_cons (s : Server) (e : SEv) (es : List SEv) : s.run (e :: es) = (s.step e).run es := rfl

/-- there is a reference whenever there is a server -/
theorem ref_step (s : Server) (e : SEv) (h : s.serving = true → s.ref = true) (hd : s.state = .disabled → s.serving = false) :
    ((s.step e).serving = true → (s.step e).ref = true) ∧ ((s.step e).state = .disabled → (s.step e).serving = false) := by
  obtain ⟨st, r, sv⟩ := s
  cases e with
  | init a b => cases st <;> cases r <;> cases sv <;> cases a <;> cases b <;> simp_all [Server.step]
  | disable a b => cases st <;> cases r <;> cases sv <;> cases a <;> cases b <;> simp_all [Server.step]
  | reset a => cases st <;> cases r <;> cases sv <;> cases a <;> simp_all [Server.step]

/-- **Disabled means that nobody is served**, whatever has happened. -/
theorem disabled_quiet (es : List SEv) (h : (Server.new.run es).state = .disabled) : (Server.new.run es).serving = false := by
  have : ∀ (es : List SEv) (s : Server), (s.serving = true → s.ref = true) → (s.state = .disabled → s.serving = false) →
      ((s.run es).state = .disabled → (s.run es).serving = false) := by
    intro es
    induction es with
    | nil => intro s _ h2; exact h2
    | cons e es ih => intro s h1 h2; rw [run_cons]; exact ih _ (ref_step s e h1 h2).1 (ref_step s e h1 h2).2
  exact this es Server.new (by simp [Server.new]) (by simp [Server.new]) h

/-- **Ready means that clients are served**, as long as nobody resets and the channels of clients can be closed. `_partial`: after a reset it is
false (`reset_not_served`), and so it is when the process starts again after the closing of a channel has failed (`restart_not_served`). -/
theorem ready_serves_partial (es : List SEv) (hr : ∀ e ∈ es, isReset e = false) (hc : ∀ e ∈ es, clientsFail e = false)
    (h : (Server.new.run es).state = .ready) : (Server.new.run es).serving = true := by
  have key : ∀ (es : List SEv) (s : Server), (∀ e ∈ es, isReset e = false) → (∀ e ∈ es, clientsFail e = false) → s.ref = s.serving →
      (s.state = .ready → s.serving = true) → ((s.run es).state = .ready → (s.run es).serving = true) := by
    intro es
    induction es with
    | nil => intro s _ _ _ h2; exact h2
    | cons e es ih =>
      intro s hr hc h1 h2
      rw [run_cons]
      have hr0 := hr e (List.mem_cons_self ..)
      have hc0 := hc e (List.mem_cons_self ..)
      have : (s.step e).ref = (s.step e).serving ∧ ((s.step e).state = .ready → (s.step e).serving = true) := by
        obtain ⟨st, r, sv⟩ := s
        cases e with
        | init a b => cases st <;> cases r <;> cases sv <;> cases a <;> cases b <;> simp_all [Server.step]
        | disable a b => cases st <;> cases r <;> cases sv <;> cases a <;> cases b <;> simp_all [Server.step, clientsFail]
        | reset a => simp [isReset] at hr0
      exact ih _ (fun x hx => hr x (List.mem_cons_of_mem _ hx)) (fun x hx => hc x (List.mem_cons_of_mem _ hx)) this.1 this.2
  exact key es Server.new hr hc rfl (by simp [Server.new]) h

/-- **Once it does not serve, nothing but a new start of the process makes it serve**: no reset does, nor any number of them. -/
theorem never_again (s : Server) (h : s.serving = false) (es : List SEv) (hi : ∀ e ∈ es, isInit e = false) : (s.run es).serving = false := by
  induction es generalizing s with
  | nil => exact h
  | cons e es ih =>
    rw [run_cons]
    refine ih _ ?_ (fun x hx => hi x (List.mem_cons_of_mem _ hx))
    have := hi e (List.mem_cons_self ..)
    obtain ⟨st, r, sv⟩ := s
    cases e with
    | init a b => simp [isInit] at this
    | disable a b => cases st <;> cases r <;> cases a <;> cases b <;> simp_all [Server.step]
    | reset a => cases st <;> cases a <;> simp_all [Server.step]

/-- A reset that goes well ends in Ready all the same. -/
theorem reset_ready (s : Server) : (s.step (.reset true)).state = .ready := by
  obtain ⟨st, r, sv⟩ := s
  cases st <;> simp [Server.step]

/-- The process starts, or starts again after the server was disabled well: it serves. -/
theorem start_serves (es : List SEv) (hc : ∀ e ∈ es, clientsFail e = false) (h : (Server.new.run es).state = .disabled) :
    ((Server.new.run es).step (.init true true)) = { state := .ready, ref := true, serving := true } := by
  have key : ∀ (es : List SEv) (s : Server), (∀ e ∈ es, clientsFail e = false) → s.ref = s.serving → (s.run es).ref = (s.run es).serving := by
    intro es
    induction es with
    | nil => intro s _ h; exact h
    | cons e es ih =>
      intro s hc h1
      rw [run_cons]
      have hc0 := hc e (List.mem_cons_self ..)
      refine ih _ (fun x hx => hc x (List.mem_cons_of_mem _ hx)) ?_
      obtain ⟨st, r, sv⟩ := s
      cases e with
      | init a b => cases st <;> cases r <;> cases sv <;> cases a <;> cases b <;> simp_all [Server.step]
      | disable a b => cases st <;> cases r <;> cases sv <;> cases a <;> cases b <;> simp_all [Server.step, clientsFail]
      | reset a => cases st <;> cases r <;> cases sv <;> cases a <;> simp_all [Server.step]
  have h1 := key es Server.new hc rfl
  rw [disabled_quiet es h] at h1
  simp [Server.step, h, h1]

/-- non-vacuity: started, stopped, and started again with the process -/
example : (Server.new.run [.init true true, .disable true true, .init true true]) = { state := .ready, ref := true, serving := true } := by decide

/-- A disable is answered well exactly when the server is Disabled after it: when the hooks go well and, if there is a server, its channels can be
closed; otherwise the block says Fault. -/
theorem disable_ends (s : Server) (hs : s.state ≠ .disabled) (hooks clients : Bool) :
    (s.step (.disable hooks clients)).state = if hooks && (!s.ref || clients) then .disabled else .fault := by
  obtain ⟨st, r, sv⟩ := s
  cases st <;> cases r <;> cases hooks <;> cases clients <;> simp_all [Server.step]

/-- A disable of what is Disabled, and a reset of what is Ready, change nothing, however they would have gone. -/
theorem refused_calls (s : Server) (hooks clients : Bool) :
    (s.state = .disabled → s.step (.disable hooks clients) = s) ∧ (s.state = .ready → s.step (.reset hooks) = s) := by
  constructor <;> intro h <;> simp [Server.step, h]

/-- The start ends in Ready exactly when the hooks go well and the server is there or can be made. -/
theorem init_ends (s : Server) (hs : s.state ≠ .ready) (hooks start : Bool) :
    (s.step (.init hooks start)).state = if hooks && (s.ref || start) then .ready else .fault := by
  obtain ⟨st, r, sv⟩ := s
  cases st <;> cases r <;> cases hooks <;> cases start <;> simp_all [Server.step]

/-- **Ready, and nobody is served**: the server is disabled and reset, or fails to start and is reset. -/
theorem reset_not_served :
    Server.new.run [.init true true, .disable true true, .reset true] = { state := .ready, ref := false, serving := false }
    ∧ Server.new.run [.init true false, .reset true] = { state := .ready, ref := false, serving := false } := by
  constructor <;> decide

/-- **Started again, and nobody is served**: the channel of a client was not closed in time when the process stopped. -/
theorem restart_not_served :
    Server.new.run [.init true true, .disable true false, .init true true] = { state := .ready, ref := true, serving := false } := by decide

/-! ### the client -/

variable {V : Type}

theorem get?_map (c : Dict String (Copy V)) (f : String → Copy V → Copy V) (n : String) :
    Dict.get? (c.map (fun x => (x.1, f x.1 x.2))) n = (Dict.get? c n).map (f n) := by
  induction c with
  | nil => rfl
  | cons a c ih =>
    obtain ⟨k, x⟩ := a
    rw [List.map_cons, Dict.get?_cons, Dict.get?_cons]
    by_cases h : k = n
    · subst h; simp
    · simp [h, ih]

/-- what is kept while the client is neither started again nor disabled -/
structure Keeps (c : Client V) : Prop where
  opened : c.ctxt = .opened
  heard : ∀ mri x, Dict.get? c.copies mri = some x → c.hears mri = true
  current : ∀ mri x, Dict.get? c.copies mri = some x → x.ok = true → c.up = true ∧ x.value = c.remote mri

theorem hears_iff {c : Client V} {mri : String} : c.hears mri = true ↔ c.ctxt = .opened ∧ ∃ l, c.monitors = some l ∧ mri ∈ l := by
  unfold Client.hears
  cases hm : c.monitors with
  | none => simp
  | some l => simp

theorem tell_get (c : Client V) (f : String → Copy V → Copy V) (n : String) :
    Dict.get? (c.tellAll f).copies n = (Dict.get? c.copies n).map (fun x => if c.hears n then f n x else x) :=
  get?_map c.copies (fun n x => if c.hears n then f n x else x) n

/-- every copy is told -/
theorem keeps_tell {c : Client V} (ho : c.ctxt = .opened) (hh : ∀ mri x, Dict.get? c.copies mri = some x → c.hears mri = true)
    (f : String → Copy V → Copy V)
    (hf : ∀ mri x, Dict.get? c.copies mri = some x → (f mri x).ok = true → c.up = true ∧ (f mri x).value = c.remote mri) : Keeps (c.tellAll f) := by
  have get : ∀ n x, Dict.get? (c.tellAll f).copies n = some x → ∃ y, Dict.get? c.copies n = some y ∧ x = f n y := by
    intro n x hx
    rw [tell_get] at hx
    cases hg : Dict.get? c.copies n with
    | none => rw [hg] at hx; cases hx
    | some y =>
      rw [hg, Option.map_some, if_pos (hh n y hg)] at hx
      cases hx
      exact ⟨y, rfl, rfl⟩
  refine ⟨ho, ?_, ?_⟩
  · intro n x hx
    obtain ⟨y, hy, _⟩ := get n x hx
    exact hh n y hy
  · intro n x hx hok
    obtain ⟨y, hy, rfl⟩ := get n x hx
    exact hf n y hy hok

theorem keeps_step {c : Client V} (h : Keeps c) (e : CEv V) (he : Steady e) : Keeps (c.step e).1 := by
  cases e with
  | init a b => exact absurd he (by simp [Steady])
  | disable a => exact absurd he (by simp [Steady])
  | reset a =>
    simp only [Client.step]
    split
    · exact h
    · split <;> exact ⟨h.opened, h.heard, h.current⟩
  | sync mri =>
    simp only [Client.step]
    cases hm : c.monitors with
    | none => exact h
    | some l =>
      dsimp only
      rw [if_pos h.opened]
      refine ⟨h.opened, ?_, ?_⟩
      · intro n x hx
        refine hears_iff.mpr ⟨h.opened, l ++ [mri], rfl, ?_⟩
        by_cases hn : n = mri
        · subst hn; simp
        · have hx' : Dict.get? c.copies n = some x := by
            have hx2 : Dict.get? (Dict.set c.copies mri { value := c.remote mri, ok := c.up }) n = some x := hx
            rw [Dict.get?_set_ne _ _ (Ne.symm hn)] at hx2
            exact hx2
          obtain ⟨_, l', hl', hmem⟩ := hears_iff.mp (h.heard n x hx')
          rw [hm] at hl'; cases hl'
          exact List.mem_append_left _ hmem
      · intro n x hx hok
        have hx2 : Dict.get? (Dict.set c.copies mri { value := c.remote mri, ok := c.up }) n = some x := hx
        by_cases hn : n = mri
        · subst hn
          rw [Dict.get?_set_self] at hx2
          cases hx2
          exact ⟨hok, rfl⟩
        · rw [Dict.get?_set_ne _ _ (Ne.symm hn)] at hx2
          exact h.current n x hx2 hok
  | change mri v =>
    simp only [Client.step]
    split
    · rename_i hu
      exact keeps_tell (c := { c with remote := fun n => if n = mri then v else c.remote n }) h.opened h.heard _ (fun _ _ _ _ => ⟨hu, rfl⟩)
    · rename_i hu
      refine ⟨h.opened, h.heard, fun n x hx hok => absurd (h.current n x hx hok).1 hu⟩
  | lost => exact keeps_tell (c := { c with up := false }) h.opened h.heard (fun _ x => { x with ok := false }) (fun _ _ _ hok => by cases hok)
  | back => exact keeps_tell (c := { c with up := true }) h.opened h.heard (fun n _ => { value := c.remote n, ok := true }) (fun _ _ _ _ => ⟨rfl, rfl⟩)

theorem crun_cons (c : Client V) (e : CEv V) (es : List (CEv V)) : c.run (e :: es) = (c.step e).1.run es := rfl

/-- **A copy whose health is OK shows the block as it is**, for all changes of the server and losses of the connection, and puts can be sent as long
as the server can be reached. `_partial`: until the client is disabled (`stale_and_ok`). -/
theorem copies_current_partial (remote : String → V) (es : List (CEv V)) (hs : ∀ e ∈ es, Steady e) :
    Current (((Client.new remote).step (.init true true)).1.run es)
    ∧ (((Client.new remote).step (.init true true)).1.run es).sends = (((Client.new remote).step (.init true true)).1.run es).up := by
  have key : ∀ (es : List (CEv V)) (c : Client V), (∀ e ∈ es, Steady e) → Keeps c → Keeps (c.run es) := by
    intro es
    induction es with
    | nil => intro c _ h; exact h
    | cons e es ih =>
      intro c hs h
      rw [crun_cons]
      exact ih _ (fun x hx => hs x (List.mem_cons_of_mem _ hx)) (keeps_step h e (hs e (List.mem_cons_self ..)))
  have h := key es ((Client.new remote).step (.init true true)).1 hs
    ⟨rfl, (fun _ _ hx => by cases hx), (fun _ _ hx => by cases hx)⟩
  refine ⟨fun n x hx hok => (h.current n x hx hok).2, ?_⟩
  unfold Client.sends
  rw [h.opened]; simp

/-- **The health of a copy is OK exactly when the server can be reached**, and every block that was asked for has a copy. `_partial`: as above. -/
theorem health_true_partial (remote : String → V) (es : List (CEv V)) (hs : ∀ e ∈ es, Steady e) (mri : String) (ha : CEv.sync mri ∈ es) :
    ∃ x, Dict.get? (((Client.new remote).step (.init true true)).1.run es).copies mri = some x
      ∧ x.ok = (((Client.new remote).step (.init true true)).1.run es).up := by
  have isome : ∀ (c : Client V) (f : String → Copy V → Copy V) (n : String),
      (Dict.get? (c.tellAll f).copies n).isSome = (Dict.get? c.copies n).isSome := by
    intro c f n; rw [tell_get, Option.isSome_map]
  have key : ∀ (es : List (CEv V)) (c : Client V), (∀ e ∈ es, Steady e) → Keeps c → c.monitors.isSome = true →
      (∀ n x, Dict.get? c.copies n = some x → x.ok = c.up) →
      (∀ n x, Dict.get? (c.run es).copies n = some x → x.ok = (c.run es).up)
      ∧ ∀ n, ((Dict.get? c.copies n).isSome = true ∨ CEv.sync n ∈ es) → (Dict.get? (c.run es).copies n).isSome = true := by
    intro es
    induction es with
    | nil => intro c _ _ _ h; exact ⟨h, fun n hn => hn.elim id (fun h => by cases h)⟩
    | cons e es ih =>
      intro c hs hk hm h
      rw [crun_cons]
      have hst : (c.step e).1.monitors.isSome = true ∧ (∀ n x, Dict.get? (c.step e).1.copies n = some x → x.ok = (c.step e).1.up)
          ∧ ∀ n, ((Dict.get? c.copies n).isSome = true ∨ CEv.sync n = e) → (Dict.get? (c.step e).1.copies n).isSome = true := by
        have he := hs e (List.mem_cons_self ..)
        cases e with
        | init a b => exact absurd he (by simp [Steady])
        | disable a => exact absurd he (by simp [Steady])
        | reset a =>
          simp only [Client.step]
          split
          · exact ⟨hm, h, fun n hn => hn.elim id (fun h => by cases h)⟩
          · split <;> exact ⟨hm, h, fun n hn => hn.elim id (fun h => by cases h)⟩
        | sync mri =>
          simp only [Client.step]
          cases hmm : c.monitors with
          | none => rw [hmm] at hm; cases hm
          | some l =>
            dsimp only
            rw [if_pos hk.opened]
            refine ⟨rfl, ?_, ?_⟩
            · intro n x hx
              have hx2 : Dict.get? (Dict.set c.copies mri { value := c.remote mri, ok := c.up }) n = some x := hx
              by_cases hn : n = mri
              · subst hn
                rw [Dict.get?_set_self] at hx2
                cases hx2; rfl
              · rw [Dict.get?_set_ne _ _ (Ne.symm hn)] at hx2
                exact h n x hx2
            · intro n hn
              show (Dict.get? (Dict.set c.copies mri { value := c.remote mri, ok := c.up }) n).isSome = true
              by_cases hn2 : n = mri
              · subst hn2; rw [Dict.get?_set_self]; rfl
              · rw [Dict.get?_set_ne _ _ (Ne.symm hn2)]
                rcases hn with hn | hn
                · exact hn
                · injection hn with hn; exact absurd hn hn2
        | change mri v =>
          simp only [Client.step]
          split
          · refine ⟨hm, ?_, ?_⟩
            · intro n x hx
              rw [tell_get] at hx
              have hx2 : (Dict.get? c.copies n).map _ = some x := hx
              cases hg : Dict.get? c.copies n with
              | none => rw [hg] at hx2; cases hx2
              | some y =>
                rw [hg, Option.map_some] at hx2
                injection hx2 with hx2
                subst hx2
                have := h n y hg
                split <;> exact this
            · intro n hn; rw [isome]; exact hn.elim id (fun h => by cases h)
          · exact ⟨hm, h, fun n hn => hn.elim id (fun h => by cases h)⟩
        | lost =>
          refine ⟨hm, ?_, ?_⟩
          · intro n x hx
            have hx2 := hx
            simp only [Client.step] at hx2
            rw [tell_get] at hx2
            have hx2 : (Dict.get? c.copies n).map _ = some x := hx2
            cases hg : Dict.get? c.copies n with
            | none => rw [hg] at hx2; cases hx2
            | some y =>
              have hh : Client.hears { c with up := false } n = true := hk.heard n y hg
              rw [hg, Option.map_some, if_pos hh] at hx2
              cases hx2; rfl
          · intro n hn
            simp only [Client.step]
            rw [isome]; exact hn.elim id (fun h => by cases h)
        | back =>
          refine ⟨hm, ?_, ?_⟩
          · intro n x hx
            have hx2 := hx
            simp only [Client.step] at hx2
            rw [tell_get] at hx2
            have hx2 : (Dict.get? c.copies n).map _ = some x := hx2
            cases hg : Dict.get? c.copies n with
            | none => rw [hg] at hx2; cases hx2
            | some y =>
              have hh : Client.hears { c with up := true } n = true := hk.heard n y hg
              rw [hg, Option.map_some, if_pos hh] at hx2
              cases hx2; rfl
          · intro n hn
            simp only [Client.step]
            rw [isome]; exact hn.elim id (fun h => by cases h)
      obtain ⟨k1, k2⟩ := ih _ (fun x hx => hs x (List.mem_cons_of_mem _ hx)) (keeps_step hk e (hs e (List.mem_cons_self ..))) hst.1 hst.2.1
      refine ⟨k1, fun n hn => k2 n ?_⟩
      rcases hn with hn | hn
      · exact .inl (hst.2.2 n (.inl hn))
      · rcases List.mem_cons.mp hn with hn | hn
        · exact .inl (hst.2.2 n (.inr hn))
        · exact .inr hn
  obtain ⟨k1, k2⟩ := key es ((Client.new remote).step (.init true true)).1 hs
    ⟨rfl, (fun _ _ hx => by cases hx), (fun _ _ hx => by cases hx)⟩ rfl (fun _ _ hx => by cases hx)
  have h2 := k2 mri (.inr ha)
  cases hg : Dict.get? (((Client.new remote).step (.init true true)).1.run es).copies mri with
  | none => rw [hg] at h2; cases h2
  | some x => exact ⟨x, rfl, k1 mri x hg⟩

/-- **Disabled for good**: once the client has been disabled, no copy changes and nothing can be sent, however often it is reset, until the process
starts again. -/
theorem disabled_for_good (c : Client V) (h : c.ctxt = .closed) (es : List (CEv V)) (hi : ∀ e ∈ es, NoInit e) :
    (c.run es).copies = c.copies ∧ (c.run es).sends = false := by
  have tell : ∀ (c : Client V) (f : String → Copy V → Copy V), c.ctxt = .closed → (c.tellAll f).copies = c.copies := by
    intro c f hc
    unfold Client.tellAll Client.hears
    simp [hc]
  have key : ∀ (es : List (CEv V)) (c : Client V), (∀ e ∈ es, NoInit e) → c.ctxt = .closed → (c.run es).copies = c.copies ∧ (c.run es).ctxt = .closed := by
    intro es
    induction es with
    | nil => intro c _ h; exact ⟨rfl, h⟩
    | cons e es ih =>
      intro c hi h
      rw [crun_cons]
      have : (c.step e).1.copies = c.copies ∧ (c.step e).1.ctxt = .closed := by
        cases e with
        | init a b => exact absurd (hi _ (List.mem_cons_self ..)) (by simp [NoInit])
        | disable a =>
          simp only [Client.step]
          split
          · exact ⟨rfl, h⟩
          · split
            · exact ⟨rfl, h⟩
            · split <;> simp [h]
        | reset a =>
          simp only [Client.step]
          split
          · exact ⟨rfl, h⟩
          · split <;> exact ⟨rfl, h⟩
        | sync mri =>
          simp only [Client.step]
          split
          · rw [if_neg (by rw [h]; simp)]; exact ⟨rfl, h⟩
          · exact ⟨rfl, h⟩
        | change mri v =>
          simp only [Client.step]
          split
          · exact ⟨tell _ _ h, h⟩
          · exact ⟨rfl, h⟩
        | lost => exact ⟨tell _ _ h, h⟩
        | back => exact ⟨tell _ _ h, h⟩
      obtain ⟨k1, k2⟩ := ih _ (fun x hx => hi x (List.mem_cons_of_mem _ hx)) this.2
      exact ⟨k1.trans this.1, k2⟩
  obtain ⟨k1, k2⟩ := key es c hi h
  refine ⟨k1, ?_⟩
  unfold Client.sends
  rw [k2]; simp

/-- A client that has started is Disabled when it is disabled, with the context closed, and Ready when it is reset; the copies are as they were. -/
theorem disable_then_reset (c : Client V) (hm : c.monitors.isSome = true) (hs : c.state ≠ .disabled) :
    (c.step (.disable true)).1 = { c with state := .disabled, ctxt := .closed }
    ∧ (c.run [.disable true, .reset true]) = { c with state := .ready, ctxt := .closed } := by
  cases hmm : c.monitors with
  | none => rw [hmm] at hm; cases hm
  | some l => simp [Client.run, Client.step, hs, hmm]

/-- non-vacuity: a copy follows, through a loss -/
example : (((Client.new (fun _ => 0)).step (.init true true)).1.run [.sync "A", .change "A" 1, .lost, .change "A" 2, .back]).copies = [("A", ⟨2, true⟩)]
    ∧ (((Client.new (fun _ => 0)).step (.init true true)).1.run [.sync "A", .change "A" 1, .lost, .change "A" 2]).copies = [("A", ⟨1, false⟩)] := by
  decide +kernel

/-- **Stale, and OK**: the client is disabled, and reset; it says Ready, the health of the copy is OK, the block has changed and the copy has not. -/
theorem stale_and_ok :
    let c := (Client.new (fun _ => 0)).run [.init true true, .sync "A", .disable true, .reset true, .change "A" 1]
    c.state = .ready ∧ c.copies = [("A", ⟨0, true⟩)] ∧ c.remote "A" = 1 ∧ ¬ Current c := by
  refine ⟨by decide +kernel, by decide +kernel, by decide +kernel, ?_⟩
  intro h
  have := h "A" ⟨0, true⟩ (by decide +kernel) rfl
  exact absurd this (by decide +kernel)

/-- **It cannot be disabled**: if the client has never started well, every disable ends in Fault. -/
theorem cannot_be_disabled (c : Client V) (h : c.monitors = none) (hooks : Bool) (hs : c.state ≠ .disabled) :
    (c.step (.disable hooks)).1.state = .fault ∧ (c.step (.disable hooks)).2 = true ∧ (c.step (.disable hooks)).1.monitors = none := by
  cases hooks <;> simp [Client.step, hs, h]

/-- such a client: its start failed -/
example : ((Client.new (fun _ => 0)).run [.init true false]).monitors = none ∧ ((Client.new (fun _ => 0)).run [.init true false]).state = .fault := by
  decide +kernel

end Verif.Props.PvaLife
