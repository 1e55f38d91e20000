import Verif.Model.Controller
import Verif.Props.Metas
/-! C15, C16, C17: requests to a controller. -/
set_option linter.unusedVariables false
namespace Verif.Props.Controller
open Verif Verif.Meta Verif.Controller

/-! ### C15 -/

/-- C15: every Get, Put and Post is answered by exactly one Return or Error, with its id, to its own
callback, and the thread that handles it does not raise - whatever the path, value, parameters,
block and user functions. (`unknown_request_unanswered`: a request of another class gets nothing,
so this is not the full English claim.) -/
theorem one_response_partial (env : Env) (b : Block) (r : Request) (hr : ∀ i c, r ≠ .other i c) :
    ∃ resp, (handle env b r).responses = [(r.cb, resp)] ∧ (handle env b r).raised = false ∧
      ((∃ p, resp = .ret r.id p) ∨ ∃ e, resp = .error r.id e) := by
  have hresp : ∀ i (x : Except Err Payload),
      (∃ p, respond i x = .ret i p) ∨ ∃ e, respond i x = .error i e := by
    intro i x
    cases x with
    | error e => exact .inr ⟨e, rfl⟩
    | ok p => exact .inl ⟨p, rfl⟩
  cases r with
  | get i c p => exact ⟨_, rfl, rfl, hresp _ _⟩
  | put i c p v g => exact ⟨_, rfl, rfl, hresp _ _⟩
  | post i c p d => exact ⟨_, rfl, rfl, hresp _ _⟩
  | other i c => exact absurd rfl (hr i c)

/-- What the code does not do: a request of an unknown class makes the thread raise and is never
answered. -/
theorem unknown_request_unanswered (env : Env) (b : Block) (i c : Nat) :
    (handle env b (.other i c)).responses = [] ∧ (handle env b (.other i c)).raised = true :=
  ⟨rfl, rfl⟩

/-- C15: if the user function raises, the answer is an Error with that exception (for a Post: unless
the arguments it was given cannot be logged, when it is an Error all the same). -/
theorem put_function_raises (env : Env) (b : Block) (i c : Nat) (m name : String) (rest : List String)
    (value v : Val) (g : Bool) (a : Attr) (f : Block → Val → Block × Except Err Val) (b' : Block) (e : Err)
    (ha : Dict.get? b name = some (.attr a)) (hw : a.writeable = true)
    (hf : env.putFn name = some f) (hv : env.ext.validate a.vmeta value = .ok v)
    (hfe : f b v = (b', .error e)) :
    (handle env b (.put i c (m :: name :: rest) value g)).responses = [(c, .error i e)] := by
  simp only [handle, handlePut, ha, hw, if_true, hf, hv, hfe, respond]

/-! ### C16 -/

/-- C16: the put function is called exactly when the path has a second element that names a
writeable attribute with a put function, and the value is accepted; it is called once, with the
validated value. -/
theorem put_called_iff_partial (env : Env) (b : Block) (path : List String) (value : Val) (get : Bool)
    (calls : List Call) :
    (handlePut env b path value get).2.1 = calls ↔
      (∃ m name rest a f v, path = m :: name :: rest ∧ Dict.get? b name = some (.attr a) ∧
        a.writeable = true ∧ env.putFn name = some f ∧ env.ext.validate a.vmeta value = .ok v ∧
        calls = [.put name v]) ∨
      (calls = [] ∧ ¬ ∃ m name rest a f v, path = m :: name :: rest ∧
        Dict.get? b name = some (.attr a) ∧ a.writeable = true ∧ env.putFn name = some f ∧
        env.ext.validate a.vmeta value = .ok v) := by
  have key : (∃ m name rest a f v, path = m :: name :: rest ∧ Dict.get? b name = some (.attr a) ∧
        a.writeable = true ∧ env.putFn name = some f ∧ env.ext.validate a.vmeta value = .ok v ∧
        (handlePut env b path value get).2.1 = [.put name v]) ∨
      ((handlePut env b path value get).2.1 = [] ∧ ¬ ∃ m name rest a f v, path = m :: name :: rest ∧
        Dict.get? b name = some (.attr a) ∧ a.writeable = true ∧ env.putFn name = some f ∧
        env.ext.validate a.vmeta value = .ok v) := by
    match path with
    | [] => right; exact ⟨rfl, by rintro ⟨m, n, r, _, _, _, h, _⟩; cases h⟩
    | [x] => right; exact ⟨rfl, by rintro ⟨m, n, r, _, _, _, h, _⟩; cases h⟩
    | m :: name :: rest =>
      simp only [handlePut]
      cases hg : Dict.get? b name with
      | none =>
        right
        refine ⟨rfl, ?_⟩
        rintro ⟨m', n', r', a, f, v, h, h2, _⟩
        simp only [List.cons.injEq] at h
        obtain ⟨_, rfl, _⟩ := h
        rw [hg] at h2; cases h2
      | some fld =>
        cases fld with
        | attr a =>
          dsimp only
          cases hw : a.writeable with
          | false =>
            right
            refine ⟨rfl, ?_⟩
            rintro ⟨m', n', r', a', f, v, h, h2, h3, _⟩
            simp only [List.cons.injEq] at h
            obtain ⟨_, rfl, _⟩ := h
            rw [hg] at h2
            simp only [Option.some.injEq, Field.attr.injEq] at h2
            subst h2
            rw [hw] at h3; cases h3
          | true =>
            simp only [if_true]
            cases hf : env.putFn name with
            | none =>
              right
              refine ⟨rfl, ?_⟩
              rintro ⟨m', n', r', a', f, v, h, h2, h3, h4, _⟩
              simp only [List.cons.injEq] at h
              obtain ⟨_, rfl, _⟩ := h
              rw [hf] at h4; cases h4
            | some f =>
              dsimp only
              cases hv : env.ext.validate a.vmeta value with
              | error e =>
                right
                refine ⟨rfl, ?_⟩
                rintro ⟨m', n', r', a', f', v, h, h2, h3, h4, h5⟩
                simp only [List.cons.injEq] at h
                obtain ⟨_, rfl, _⟩ := h
                rw [hg] at h2
                simp only [Option.some.injEq, Field.attr.injEq] at h2
                subst h2
                rw [hv] at h5; cases h5
              | ok v =>
                left
                refine ⟨m, name, rest, a, f, v, rfl, hg, hw, hf, hv, ?_⟩
                dsimp only
                cases hr : f b v with
                | mk b' res => cases res <;> rfl
        | method m =>
          right
          refine ⟨rfl, ?_⟩
          rintro ⟨m', n', r', a, f, v, h, h2, _⟩
          simp only [List.cons.injEq] at h
          obtain ⟨_, rfl, _⟩ := h
          rw [hg] at h2; cases h2
        | other =>
          right
          refine ⟨rfl, ?_⟩
          rintro ⟨m', n', r', a, f, v, h, h2, _⟩
          simp only [List.cons.injEq] at h
          obtain ⟨_, rfl, _⟩ := h
          rw [hg] at h2; cases h2
  constructor
  · intro h
    subst h
    exact key
  · rintro (⟨m, name, rest, a, f, v, h1, h2, h3, h4, h5, rfl⟩ | ⟨rfl, hno⟩)
    · rcases key with ⟨m', n', r', a', f', v', g1, g2, g3, g4, g5, g6⟩ | ⟨_, hno⟩
      · rw [g1] at h1
        simp only [List.cons.injEq] at h1
        obtain ⟨_, rfl, _⟩ := h1
        rw [g2] at h2
        simp only [Option.some.injEq, Field.attr.injEq] at h2
        subst h2
        rw [g5] at h5
        simp only [Except.ok.injEq] at h5
        subst h5
        exact g6
      · exact absurd ⟨m, name, rest, a, f, v, h1, h2, h3, h4, h5⟩ hno
    · rcases key with ⟨m', n', r', a', f', v', g1, g2, g3, g4, g5, g6⟩ | ⟨h, _⟩
      · exact absurd ⟨m', n', r', a', f', v', g1, g2, g3, g4, g5⟩ hno
      · exact h

/-- C16: a Put that does not reach the put function leaves the block alone and is answered by an
Error. -/
theorem put_refused (env : Env) (b : Block) (path : List String) (value : Val) (get : Bool)
    (h : (handlePut env b path value get).2.1 = []) :
    (handlePut env b path value get).1 = b ∧ ∃ e, (handlePut env b path value get).2.2 = .error e := by
  match path with
  | [] => exact ⟨rfl, _, rfl⟩
  | [x] => exact ⟨rfl, _, rfl⟩
  | m :: name :: rest =>
    simp only [handlePut] at h ⊢
    cases hg : Dict.get? b name with
    | none => exact ⟨rfl, _, rfl⟩
    | some fld =>
      cases fld with
      | attr a =>
        rw [hg] at h
        dsimp only at h ⊢
        cases hw : a.writeable with
        | false => exact ⟨rfl, _, rfl⟩
        | true =>
          simp only [hw, if_true] at h ⊢
          cases hf : env.putFn name with
          | none => exact ⟨rfl, _, rfl⟩
          | some f =>
            rw [hf] at h
            dsimp only at h ⊢
            cases hv : env.ext.validate a.vmeta value with
            | error e => exact ⟨rfl, _, rfl⟩
            | ok v =>
              rw [hv] at h
              dsimp only at h ⊢
              cases hr : f b v with
              | mk b' res =>
                rw [hr] at h
                cases res <;> cases h
      | method m => exact ⟨rfl, _, rfl⟩
      | other => exact ⟨rfl, _, rfl⟩

/-- What the code does not do: the rest of the path is not looked at, so a Put to any endpoint of
an attribute, or of something below it that does not exist, is a Put of its value. -/
theorem put_ignores_rest_of_path (env : Env) (b : Block) (m name : String) (rest rest' : List String)
    (value : Val) (get : Bool) :
    handlePut env b (m :: name :: rest) value get = handlePut env b (m :: name :: rest') value get :=
  rfl

/-- C16: a Put of an attribute without a special setter that is answered by a Return has stored the
validated value (up to an Array now being wrapped in a numpy array). -/
theorem put_stores_validated (env : Env) (b : Block) (m name : String) (rest : List String) (value : Val)
    (get : Bool) (a : Attr) (p : Payload)
    (ha : Dict.get? b name = some (.attr a)) (hf : env.putFn name = some (setValue env.ext name))
    (hs : Props.Metas.VMeta.Sane a.vmeta) (hwf : value.WF)
    (hp : env.ext.wraps = false ∨ PlainFor a.vmeta value) (hc : a.vmeta.HasChoices)
    (hok : (handlePut env b (m :: name :: rest) value get).2.2 = .ok p) :
    ∃ v w, env.ext.validate a.vmeta value = .ok v ∧
      Dict.get? (handlePut env b (m :: name :: rest) value get).1 name =
        some (.attr { a with value := w }) ∧ w.forget = v.forget := by
  simp only [handlePut, ha] at hok ⊢
  cases hw : a.writeable with
  | false => rw [hw] at hok; cases hok
  | true =>
    simp only [hw, if_true, hf] at hok ⊢
    cases hv : env.ext.validate a.vmeta value with
    | error e => rw [hv] at hok; cases hok
    | ok v =>
      obtain ⟨w, h1, h2⟩ := Props.Metas.validate_idempotent_partial env.ext a.vmeta value v hs hwf hp hc hv
      refine ⟨v, w, rfl, ?_, h2⟩
      simp only [setValue, ha, h1]
      rw [Dict.get?_set_self, hw]

/-- ... and such a Put never fails once the value has been accepted. -/
theorem put_default_setter_succeeds (env : Env) (b : Block) (m name : String) (rest : List String)
    (value v : Val) (get : Bool) (a : Attr)
    (ha : Dict.get? b name = some (.attr a)) (hw : a.writeable = true)
    (hf : env.putFn name = some (setValue env.ext name))
    (hs : Props.Metas.VMeta.Sane a.vmeta) (hwf : value.WF)
    (hp : env.ext.wraps = false ∨ PlainFor a.vmeta value) (hc : a.vmeta.HasChoices)
    (hv : env.ext.validate a.vmeta value = .ok v) :
    ∃ p, (handlePut env b (m :: name :: rest) value get).2.2 = .ok p := by
  obtain ⟨w, h1, h2⟩ := Props.Metas.validate_idempotent_partial env.ext a.vmeta value v hs hwf hp hc hv
  simp only [handlePut, ha, hw, if_true, hf, hv, setValue, h1, putResult, Dict.get?_set_self]
  split
  · exact ⟨_, rfl⟩
  · split
    · exact ⟨_, rfl⟩
    · exact ⟨_, rfl⟩

/-- C15: what a Put answers with when its put function returned: nothing unless asked for, else what the function returned, and if
that is nothing, the value that the attribute has now. -/
theorem put_answer (env : Env) (b : Block) (i c : Nat) (m name : String) (rest : List String) (value v : Val) (a a' : Attr)
    (f : Block → Val → Block × Except Err Val) (b' : Block) (r : Val)
    (ha : Dict.get? b name = some (.attr a)) (hw : a.writeable = true) (hf : env.putFn name = some f)
    (hv : env.ext.validate a.vmeta value = .ok v) (hfr : f b v = (b', .ok r)) (ha' : Dict.get? b' name = some (.attr a')) :
    (handle env b (.put i c (m :: name :: rest) value false)).responses = [(c, .ret i (.val none'))] ∧
    (handle env b (.put i c (m :: name :: rest) value true)).responses =
      [(c, .ret i (.val (if r = none' then a'.value else r)))] := by
  constructor
  · simp [handle, handlePut, ha, hw, hf, hv, hfr, respond, putResult]
  · by_cases hr : r = none'
    · simp [handle, handlePut, ha, hw, hf, hv, hfr, respond, putResult, hr, ha']
    · simp [handle, handlePut, ha, hw, hf, hv, hfr, respond, putResult, hr]

/-- The values that a method's result is made of, by the names of its returns: nothing at all, one value called `return`, or a map. -/
inductive Gives (m : Method) : Ret → Dict String Val → Prop
  | nothing (h : m.unpacked = false) : Gives m .none []
  | single (v : Val) (h : m.unpacked = true) : Gives m (.value v) [("return", v)]
  | missing (h : m.unpacked = true) : Gives m .none [("return", none')]
  | map (d : Dict String Val) (h : m.unpacked = false) : Gives m (.map d) d

theorem gives_iff (m : Method) (r : Ret) (d : Dict String Val) : returnedValue m r = .ok d ↔ Gives m r d := by
  constructor
  · intro h
    cases hu : m.unpacked <;> cases r <;> simp [returnedValue, hu] at h <;> subst h
    · exact .nothing hu
    · exact .map _ hu
    · exact .missing hu
    · exact .single _ hu
  · intro h
    cases h with
    | nothing h => simp [returnedValue, h]
    | single v h => simp [returnedValue, h]
    | missing h => simp [returnedValue, h]
    | map d h => simp [returnedValue, h]

/-- C17: when a method was called with `args` and returned `r`, and what it returned is as declared, the answer is a Return of exactly
`r`, and the method in the block has logged the arguments and the values returned, validated. -/
theorem post_answer (env : Env) (b : Block) (i c : Nat) (mri name : String) (rest : List String) (params args : Dict String Val)
    (m m' : Method) (f : Block → Dict String Val → Block × Except Err Ret) (b' : Block) (r : Ret) (d took returned : Dict String Val)
    (hg : Dict.get? b name = some (.method m)) (hw : m.writeable = true) (hf : env.postFn name = some f)
    (hv : env.ext.validateMap m.takes params false = .ok args) (hfr : f b args = (b', .ok r)) (hd : Gives m r d)
    (ht : env.ext.validateMap m.takes args true = .ok took) (hr : env.ext.validateMap m.returns d true = .ok returned)
    (hm' : Dict.get? b' name = some (.method m')) :
    (handle env b (.post i c (mri :: name :: rest) params)).responses = [(c, .ret i (.ret r))] ∧
    Dict.get? (handle env b (.post i c (mri :: name :: rest) params)).block name =
      some (.method { m' with took := took, returned := returned }) ∧
    ∀ other, other ≠ name →
      Dict.get? (handle env b (.post i c (mri :: name :: rest) params)).block other = Dict.get? b' other := by
  have h1 := (gives_iff m r d).2 hd
  have h2 : updateLogs env b' name m args (.ok d) =
      (Dict.set (Dict.set b' name (.method { m' with took := took })) name (.method { m' with took := took, returned := returned }), none) := by
    simp only [updateLogs, ht, hr, setTook, hm', setReturned, Dict.get?_set_self]
  have h3 : handlePost env b (mri :: name :: rest) params =
      (Dict.set (Dict.set b' name (.method { m' with took := took })) name (.method { m' with took := took, returned := returned }),
        [.post name args], .ok (.ret r)) := by
    simp only [handlePost, hg, hw, if_true, hf, hv, hfr, h1, h2]
  refine ⟨?_, ?_, ?_⟩
  · simp only [handle, h3, respond]
  · simp only [handle, h3]; exact Dict.get?_set_self ..
  · intro other ho
    simp only [handle, h3]
    rw [Dict.get?_set_ne _ _ (Ne.symm ho), Dict.get?_set_ne _ _ (Ne.symm ho)]

/-- C17: when the method raised, the answer is an Error with that, and the method in the block has logged the arguments and nothing
returned (the defaults). -/
theorem post_raised (env : Env) (b : Block) (i c : Nat) (mri name : String) (rest : List String) (params args : Dict String Val)
    (m m' : Method) (f : Block → Dict String Val → Block × Except Err Ret) (b' : Block) (e : Err) (took returned : Dict String Val)
    (hg : Dict.get? b name = some (.method m)) (hw : m.writeable = true) (hf : env.postFn name = some f)
    (hv : env.ext.validateMap m.takes params false = .ok args) (hfr : f b args = (b', .error e))
    (ht : env.ext.validateMap m.takes args true = .ok took) (hr : env.ext.validateMap m.returns [] true = .ok returned)
    (hm' : Dict.get? b' name = some (.method m')) :
    (handle env b (.post i c (mri :: name :: rest) params)).responses = [(c, .error i e)] ∧
    Dict.get? (handle env b (.post i c (mri :: name :: rest) params)).block name =
      some (.method { m' with took := took, returned := returned }) := by
  have h2 : updateLogs env b' name m args (.ok []) =
      (Dict.set (Dict.set b' name (.method { m' with took := took })) name (.method { m' with took := took, returned := returned }), none) := by
    simp only [updateLogs, ht, hr, setTook, hm', setReturned, Dict.get?_set_self]
  have h3 : handlePost env b (mri :: name :: rest) params =
      (Dict.set (Dict.set b' name (.method { m' with took := took })) name (.method { m' with took := took, returned := returned }),
        [.post name args], .error e) := by
    simp only [handlePost, hg, hw, if_true, hf, hv, hfr, h2]
  refine ⟨?_, ?_⟩
  · simp only [handle, h3, respond]
  · simp only [handle, h3]; exact Dict.get?_set_self ..

/-- C17: when what the method returned is not as declared, the answer is an Error, and the arguments are logged beside what an earlier
call returned. -/
theorem post_bad_result (env : Env) (b : Block) (i c : Nat) (mri name : String) (rest : List String) (params args : Dict String Val)
    (m m' : Method) (f : Block → Dict String Val → Block × Except Err Ret) (b' : Block) (r : Ret) (e : Err) (d took : Dict String Val)
    (hg : Dict.get? b name = some (.method m)) (hw : m.writeable = true) (hf : env.postFn name = some f)
    (hv : env.ext.validateMap m.takes params false = .ok args) (hfr : f b args = (b', .ok r)) (hd : Gives m r d)
    (ht : env.ext.validateMap m.takes args true = .ok took) (hr : env.ext.validateMap m.returns d true = .error e)
    (hm' : Dict.get? b' name = some (.method m')) :
    (handle env b (.post i c (mri :: name :: rest) params)).responses = [(c, .error i e)] ∧
    Dict.get? (handle env b (.post i c (mri :: name :: rest) params)).block name = some (.method { m' with took := took }) := by
  have h1 := (gives_iff m r d).2 hd
  have h2 : updateLogs env b' name m args (.ok d) = (Dict.set b' name (.method { m' with took := took }), some e) := by
    simp only [updateLogs, ht, hr, setTook, hm']
  have h3 : handlePost env b (mri :: name :: rest) params =
      (Dict.set b' name (.method { m' with took := took }), [.post name args], .error e) := by
    simp only [handlePost, hg, hw, if_true, hf, hv, hfr, h1, h2]
  refine ⟨?_, ?_⟩
  · simp only [handle, h3, respond]
  · simp only [handle, h3]; exact Dict.get?_set_self ..

theorem mapLoop_filled (e : Ext) (d : Dict String Val) (els : Dict String VMeta) (hn : els.keys.Nodup) :
    ∀ out, e.mapLoop d true els = .ok out → out.keys = els.keys ∧
      ∀ k vm, (k, vm) ∈ els → ∃ w, e.validate vm ((Dict.get? d k).getD none') = .ok w ∧ Dict.get? out k = some w := by
  induction els with
  | nil =>
    intro out h
    simp only [Ext.mapLoop, Except.ok.injEq] at h
    subst h
    exact ⟨rfl, fun k vm hm => by cases hm⟩
  | cons km rest ih =>
    obtain ⟨k, vm⟩ := km
    intro out h
    simp only [Dict.keys, List.map_cons, List.nodup_cons] at hn
    have key : ∃ w o, e.validate vm ((Dict.get? d k).getD none') = .ok w ∧ e.mapLoop d true rest = .ok o ∧ out = (k, w) :: o := by
      simp only [Ext.mapLoop] at h
      cases hg : Dict.get? d k with
      | none =>
        rw [hg] at h
        simp only [if_true] at h
        show ∃ w o, e.validate vm none' = _ ∧ _
        cases hv : e.validate vm (.col (.scalar .none)) with
        | error er => rw [hv] at h; cases h
        | ok w =>
          rw [hv] at h
          cases hl : e.mapLoop d true rest with
          | error er => rw [hl] at h; cases h
          | ok o => rw [hl] at h; cases h; exact ⟨w, o, hv, rfl, rfl⟩
      | some v =>
        rw [hg] at h
        dsimp only at h
        show ∃ w o, e.validate vm v = _ ∧ _
        cases hv : e.validate vm v with
        | error er => rw [hv] at h; cases h
        | ok w =>
          rw [hv] at h
          cases hl : e.mapLoop d true rest with
          | error er => rw [hl] at h; cases h
          | ok o => rw [hl] at h; cases h; exact ⟨w, o, rfl, rfl, rfl⟩
    obtain ⟨w, o, hv, ho, rfl⟩ := key
    obtain ⟨h1, h2⟩ := ih hn.2 o ho
    refine ⟨by simp [Dict.keys] at h1 ⊢; exact h1, ?_⟩
    intro k' vm' hm
    rcases List.mem_cons.1 hm with hm | hm
    · cases hm
      exact ⟨w, hv, by simp [Dict.get?_cons]⟩
    · obtain ⟨w', h3, h4⟩ := h2 k' vm' hm
      refine ⟨w', h3, ?_⟩
      have : k ≠ k' := by
        rintro rfl
        exact hn.1 (List.mem_map.2 ⟨_, hm, rfl⟩)
      rw [Dict.get?_cons, if_neg this]; exact h4

/-- C17: what is logged for each declared name: the value given, validated, or what the type makes of no value; nothing else is, and
values that are not declared are refused. -/
theorem logged_values (e : Ext) (mm : MapMeta) (hn : mm.elements.keys.Nodup) (d logged : Dict String Val)
    (h : e.validateMap mm d true = .ok logged) :
    logged.keys = mm.elements.keys ∧ (∀ k ∈ d.keys, k ∈ mm.elements.keys) ∧
    ∀ k vm, (k, vm) ∈ mm.elements → ∃ w, e.validate vm ((Dict.get? d k).getD none') = .ok w ∧ Dict.get? logged k = some w := by
  unfold Ext.validateMap at h
  split at h
  · cases h
  · rename_i h1
    simp only [List.any_eq_true, not_exists, not_and, Bool.not_eq_true', decide_eq_false_iff_not, Decidable.not_not] at h1
    cases hl : e.mapLoop d true mm.elements with
    | error er => rw [hl] at h; cases h
    | ok a =>
      rw [hl] at h
      dsimp only at h
      split at h
      · cases h
      · cases h
        obtain ⟨h2, h3⟩ := mapLoop_filled e d mm.elements hn _ hl
        exact ⟨h2, h1, h3⟩

/-! ### C17 -/

theorem mapLoop_spec (e : Ext) (params : Dict String Val) (els : Dict String VMeta)
    (hn : els.keys.Nodup) (args : Dict String Val) (h : e.mapLoop params false els = .ok args) :
    args.keys = els.keys.filter (fun k => decide (k ∈ params.keys)) ∧
    ∀ k m v, (k, m) ∈ els → Dict.get? params k = some v →
      ∃ w, e.validate m v = .ok w ∧ Dict.get? args k = some w := by
  induction els generalizing args with
  | nil =>
    simp only [Ext.mapLoop, Except.ok.injEq] at h
    subst h
    exact ⟨rfl, by intro k m v hm; simp at hm⟩
  | cons km els ih =>
    obtain ⟨k, m⟩ := km
    simp only [Dict.keys, List.map_cons, List.nodup_cons] at hn
    unfold Ext.mapLoop at h
    cases hg : Dict.get? params k with
    | none =>
      rw [hg] at h
      simp only [Bool.false_eq_true, if_false] at h
      obtain ⟨h1, h2⟩ := ih hn.2 args h
      have hk : k ∉ params.keys := Dict.get?_none_iff.1 hg
      refine ⟨?_, ?_⟩
      · show args.keys = List.filter _ (k :: Dict.keys els)
        rw [List.filter_cons_of_neg (by rw [decide_eq_true_eq]; exact hk)]
        exact h1
      · intro k' m' v hm hv
        rcases List.mem_cons.1 hm with he | he
        · simp only [Prod.mk.injEq] at he
          obtain ⟨rfl, rfl⟩ := he
          rw [hg] at hv; cases hv
        · exact h2 k' m' v he hv
    | some v0 =>
      rw [hg] at h
      dsimp only at h
      cases hv0 : e.validate m v0 with
      | error er => rw [hv0] at h; cases h
      | ok w0 =>
        rw [hv0] at h
        dsimp only at h
        cases hr : e.mapLoop params false els with
        | error er => rw [hr] at h; cases h
        | ok d =>
          rw [hr] at h
          simp only [Except.ok.injEq] at h
          subst h
          obtain ⟨h1, h2⟩ := ih hn.2 d hr
          have hk : k ∈ params.keys := by
            have := Dict.get?_mem hg
            exact List.mem_map.2 ⟨_, this, rfl⟩
          refine ⟨?_, ?_⟩
          · show k :: Dict.keys d = List.filter _ (k :: Dict.keys els)
            rw [List.filter_cons_of_pos (by rw [decide_eq_true_eq]; exact hk)]
            exact congrArg _ h1
          · intro k' m' v hm hv
            rcases List.mem_cons.1 hm with he | he
            · simp only [Prod.mk.injEq] at he
              obtain ⟨rfl, rfl⟩ := he
              rw [hg] at hv
              simp only [Option.some.injEq] at hv
              subst hv
              exact ⟨w0, hv0, by simp [Dict.get?]⟩
            · obtain ⟨w, hw1, hw2⟩ := h2 k' m' v he hv
              refine ⟨w, hw1, ?_⟩
              have hne : k ≠ k' := by
                intro hc; subst hc
                exact hn.1 (List.mem_map.2 ⟨_, he, rfl⟩)
              simp only [Dict.get?, if_neg hne]
              exact hw2

theorem mapLoop_complete (e : Ext) (params : Dict String Val) (els : Dict String VMeta)
    (h : ∀ k m v, (k, m) ∈ els → Dict.get? params k = some v → ∃ w, e.validate m v = .ok w) :
    ∃ args, e.mapLoop params false els = .ok args := by
  induction els with
  | nil => exact ⟨[], rfl⟩
  | cons km els ih =>
    obtain ⟨k, m⟩ := km
    obtain ⟨args, ha⟩ := ih (fun k' m' v hm => h k' m' v (by simp [hm]))
    unfold Ext.mapLoop
    cases hg : Dict.get? params k with
    | none => exact ⟨args, by simpa using ha⟩
    | some v =>
      obtain ⟨w, hw⟩ := h k m v (by simp) hg
      exact ⟨(k, w) :: args, by simp only [hw, ha]⟩

/-- Specification of the arguments of a method: `args` are the given parameters, each validated, in
the order of the declared elements; nothing is given that is not declared and nothing required is
missing. -/
def ArgsOk (e : Ext) (mm : MapMeta) (params args : Dict String Val) : Prop :=
  (∀ k ∈ params.keys, k ∈ mm.elements.keys) ∧
  (∀ r ∈ mm.required, r ∈ params.keys) ∧
  args.keys = mm.elements.keys.filter (fun k => decide (k ∈ params.keys)) ∧
  ∀ k m v, (k, m) ∈ mm.elements → Dict.get? params k = some v →
    ∃ w, e.validate m v = .ok w ∧ Dict.get? args k = some w

theorem validateMap_sound (e : Ext) (mm : MapMeta) (hn : mm.elements.keys.Nodup)
    (params args : Dict String Val) (h : e.validateMap mm params false = .ok args) :
    ArgsOk e mm params args := by
  unfold Ext.validateMap at h
  split at h
  · cases h
  · rename_i h1
    simp only [List.any_eq_true, not_exists, not_and, Bool.not_eq_true', decide_eq_false_iff_not,
      Decidable.not_not] at h1
    cases hl : e.mapLoop params false mm.elements with
    | error er => rw [hl] at h; cases h
    | ok a =>
      rw [hl] at h
      dsimp only at h
      split at h
      · cases h
      · rename_i h2
        simp only [List.any_eq_true, not_exists, not_and, Bool.not_eq_true', decide_eq_false_iff_not,
          Decidable.not_not] at h2
        simp only [Except.ok.injEq] at h
        subst h
        obtain ⟨s1, s2⟩ := mapLoop_spec e params mm.elements hn a hl
        refine ⟨h1, ?_, s1, s2⟩
        intro r hr
        have := h2 r hr
        rw [s1] at this
        simpa using (List.mem_filter.1 this).2

theorem validateMap_complete (e : Ext) (mm : MapMeta) (hn : mm.elements.keys.Nodup)
    (hreq : ∀ r ∈ mm.required, r ∈ mm.elements.keys)
    (params : Dict String Val) (h1 : ∀ k ∈ params.keys, k ∈ mm.elements.keys)
    (h2 : ∀ r ∈ mm.required, r ∈ params.keys)
    (h3 : ∀ k m v, (k, m) ∈ mm.elements → Dict.get? params k = some v → ∃ w, e.validate m v = .ok w) :
    ∃ args, e.validateMap mm params false = .ok args := by
  obtain ⟨args, ha⟩ := mapLoop_complete e params mm.elements h3
  obtain ⟨s1, _⟩ := mapLoop_spec e params mm.elements hn args ha
  refine ⟨args, ?_⟩
  unfold Ext.validateMap
  rw [if_neg, ha]
  · dsimp only
    rw [if_neg]
    simp only [List.any_eq_true, not_exists, not_and, Bool.not_eq_true', decide_eq_false_iff_not,
      Decidable.not_not]
    intro r hr
    rw [s1]
    exact List.mem_filter.2 ⟨hreq r hr, by simpa using h2 r hr⟩
  · simp only [List.any_eq_true, not_exists, not_and, Bool.not_eq_true', decide_eq_false_iff_not,
      Decidable.not_not]
    exact h1

/-- C17: if a Post calls the method then it does so once, on a writeable method, with arguments that
are declared, validated, and include all the required ones. -/
theorem post_called_only_with_valid (env : Env) (b : Block) (path : List String)
    (params : Dict String Val) (c : Call)
    (hn : ∀ name m, Dict.get? b name = some (.method m) → m.takes.elements.keys.Nodup)
    (h : c ∈ (handlePost env b path params).2.1) :
    ∃ mri name rest m args, path = mri :: name :: rest ∧ Dict.get? b name = some (.method m) ∧
      m.writeable = true ∧ c = .post name args ∧ ArgsOk env.ext m.takes params args ∧
      (handlePost env b path params).2.1 = [c] := by
  match path with
  | [] => simp [handlePost] at h
  | [x] => simp [handlePost] at h
  | mri :: name :: rest =>
    simp only [handlePost] at h ⊢
    cases hg : Dict.get? b name with
    | none => rw [hg] at h; simp at h
    | some fld =>
      cases fld with
      | attr a => rw [hg] at h; simp at h
      | other => rw [hg] at h; simp at h
      | method m =>
        rw [hg] at h
        dsimp only at h ⊢
        cases hw : m.writeable with
        | false => rw [hw] at h; simp at h
        | true =>
          simp only [hw, if_true] at h ⊢
          cases hf : env.postFn name with
          | none => rw [hf] at h; simp at h
          | some f =>
            rw [hf] at h
            dsimp only at h ⊢
            cases hv : env.ext.validateMap m.takes params false with
            | error e => rw [hv] at h; simp at h
            | ok args =>
              rw [hv] at h
              dsimp only at h ⊢
              have hs := validateMap_sound env.ext m.takes (hn name m hg) params args hv
              suffices hc : ∀ (l : List Call), l = [.post name args] → c ∈ l →
                  c = .post name args ∧ l = [c] by
                have hl : ∀ (x : Block × Except Err Ret),
                    (match x with
                      | (b', .error e) =>
                        match updateLogs env b' name m args (.ok []) with
                        | (b'', some e2) => (b'', [Call.post name args], Except.error e2)
                        | (b'', none) => (b'', [.post name args], .error e)
                      | (b', .ok r) =>
                        match updateLogs env b' name m args (returnedValue m r) with
                        | (b'', some e2) => (b'', [.post name args], .error e2)
                        | (b'', none) => (b'', [.post name args], .ok (Payload.ret r))).2.1 =
                      [.post name args] := by
                  rintro ⟨b', res⟩
                  cases res with
                  | error e =>
                    dsimp only
                    rcases updateLogs env b' name m args (.ok []) with ⟨_, _ | _⟩ <;> rfl
                  | ok r =>
                    dsimp only
                    rcases updateLogs env b' name m args (returnedValue m r) with ⟨_, _ | _⟩ <;> rfl
                obtain ⟨h1, h2⟩ := hc _ (hl (f b args)) h
                exact ⟨mri, name, rest, m, args, rfl, hg, hw, h1, hs, h2⟩
              intro l hl hcl
              subst hl
              have : c = .post name args := by simpa using hcl
              exact ⟨this, by rw [this]⟩

/-- C17: otherwise the answer is an Error and nothing changes. -/
theorem post_refused (env : Env) (b : Block) (path : List String) (params : Dict String Val)
    (h : (handlePost env b path params).2.1 = []) :
    (handlePost env b path params).1 = b ∧ ∃ e, (handlePost env b path params).2.2 = .error e := by
  match path with
  | [] => exact ⟨rfl, _, rfl⟩
  | [x] => exact ⟨rfl, _, rfl⟩
  | m :: name :: rest =>
    simp only [handlePost] at h ⊢
    cases hg : Dict.get? b name with
    | none => exact ⟨rfl, _, rfl⟩
    | some fld =>
      cases fld with
      | attr a => exact ⟨rfl, _, rfl⟩
      | other => exact ⟨rfl, _, rfl⟩
      | method m =>
        rw [hg] at h
        dsimp only at h ⊢
        cases hw : m.writeable with
        | false => exact ⟨rfl, _, rfl⟩
        | true =>
          simp only [hw, if_true] at h ⊢
          cases hf : env.postFn name with
          | none => exact ⟨rfl, _, rfl⟩
          | some f =>
            rw [hf] at h
            dsimp only at h ⊢
            cases hv : env.ext.validateMap m.takes params false with
            | error e => exact ⟨rfl, _, rfl⟩
            | ok args =>
              rw [hv] at h
              dsimp only at h ⊢
              cases hr : f b args with
              | mk b' res =>
                rw [hr] at h
                cases res with
                | error e =>
                  dsimp only at h ⊢
                  rcases hu : updateLogs env b' name m args (.ok []) with ⟨_, _ | _⟩ <;> rw [hu] at h <;> cases h
                | ok r =>
                  dsimp only at h ⊢
                  rcases hu : updateLogs env b' name m args (returnedValue m r) with ⟨_, _ | _⟩ <;> rw [hu] at h <;> cases h

/-- C17: and good parameters do reach the method. -/
theorem post_called_if_valid (env : Env) (b : Block) (mri name : String) (rest : List String)
    (params : Dict String Val) (m : Method) (f : Block → Dict String Val → Block × Except Err Ret)
    (hg : Dict.get? b name = some (.method m)) (hw : m.writeable = true) (hf : env.postFn name = some f)
    (hn : m.takes.elements.keys.Nodup) (hreq : ∀ r ∈ m.takes.required, r ∈ m.takes.elements.keys)
    (h1 : ∀ k ∈ params.keys, k ∈ m.takes.elements.keys) (h2 : ∀ r ∈ m.takes.required, r ∈ params.keys)
    (h3 : ∀ k vm v, (k, vm) ∈ m.takes.elements → Dict.get? params k = some v →
      ∃ w, env.ext.validate vm v = .ok w) :
    ∃ args, ArgsOk env.ext m.takes params args ∧
      (handlePost env b (mri :: name :: rest) params).2.1 = [.post name args] := by
  obtain ⟨args, ha⟩ := validateMap_complete env.ext m.takes hn hreq params h1 h2 h3
  refine ⟨args, validateMap_sound env.ext m.takes hn params args ha, ?_⟩
  simp only [handlePost, hg, hw, if_true, hf, ha]
  cases f b args with
  | mk b' res =>
    cases res with
    | error e =>
      dsimp only
      rcases updateLogs env b' name m args (.ok []) with ⟨_, _ | _⟩ <;> rfl
    | ok r =>
      dsimp only
      rcases updateLogs env b' name m args (returnedValue m r) with ⟨_, _ | _⟩ <;> rfl

theorem bindLoop_spec (args : Dict String Val) (sig : List Param) (hn : (sig.map (·.name)).Nodup)
    (h : ∀ p ∈ sig, p.dflt = none → p.name ∈ args.keys) :
    ∃ out, bindLoop args sig = .ok out ∧ out.keys = sig.map (·.name) ∧
      ∀ p ∈ sig, (∀ v, Dict.get? args p.name = some v → Dict.get? out p.name = some v) ∧
        (Dict.get? args p.name = none → ∀ d, p.dflt = some d → Dict.get? out p.name = some (d.getD none')) := by
  induction sig with
  | nil => exact ⟨[], rfl, rfl, by simp⟩
  | cons p ps ih =>
    simp only [List.map_cons, List.nodup_cons] at hn
    obtain ⟨out, h1, h2, h3⟩ := ih hn.2 (fun q hq => h q (by simp [hq]))
    have tail : ∀ (v : Val) (q : Param), q ∈ ps →
        Dict.get? ((p.name, v) :: out) q.name = Dict.get? out q.name := by
      intro v q hq
      have hne : p.name ≠ q.name := by
        intro hc
        exact hn.1 (hc ▸ List.mem_map.2 ⟨q, hq, rfl⟩)
      simp only [Dict.get?, if_neg hne]
    unfold bindLoop
    cases hg : Dict.get? args p.name with
    | some v =>
      refine ⟨(p.name, v) :: out, by simp only [h1], by simp only [Dict.keys, List.map_cons]; exact congrArg _ h2, ?_⟩
      intro q hq
      rcases List.mem_cons.1 hq with rfl | hq
      · refine ⟨?_, ?_⟩
        · intro v' hv'
          rw [hg] at hv'
          simp only [Option.some.injEq] at hv'
          subst hv'
          simp [Dict.get?]
        · intro hc; rw [hg] at hc; cases hc
      · rw [tail v q hq]; exact h3 q hq
    | none =>
      cases hd : p.dflt with
      | none =>
        have := h p (by simp) hd
        exact absurd this (Dict.get?_none_iff.1 hg)
      | some d =>
        refine ⟨(p.name, d.getD none') :: out, by simp only [h1], by simp only [Dict.keys, List.map_cons]; exact congrArg _ h2, ?_⟩
        intro q hq
        rcases List.mem_cons.1 hq with rfl | hq
        · refine ⟨?_, ?_⟩
          · intro v' hv'; rw [hg] at hv'; cases hv'
          · intro _ d' hd'
            rw [hd] at hd'
            simp only [Option.some.injEq] at hd'
            subst hd'
            simp [Dict.get?]
        · rw [tail _ q hq]; exact h3 q hq

/-- C17: for a method made from a decorated function, arguments that pass `takes` always make a
complete Python call: each parameter gets the validated value given for it, or its own default. -/
theorem python_call_complete (e : Ext) (sig : List Param) (hn : (sig.map (·.name)).Nodup)
    (params args : Dict String Val) (h : e.validateMap (fromCallable sig) params false = .ok args) :
    ∃ out, Controller.bind sig args = .ok out ∧ out.keys = sig.map (·.name) ∧
      ∀ p ∈ sig,
        (∀ v, Dict.get? params p.name = some v →
          ∃ w, e.validate p.vmeta v = .ok w ∧ Dict.get? out p.name = some w) ∧
        (Dict.get? params p.name = none →
          ∃ d, p.dflt = some d ∧ Dict.get? out p.name = some (d.getD none')) := by
  have hk : (fromCallable sig).elements.keys = sig.map (·.name) := by
    simp [fromCallable, Dict.keys]
  obtain ⟨a1, a2, a3, a4⟩ := validateMap_sound e (fromCallable sig) (by rw [hk]; exact hn) params args h
  rw [hk] at a1 a3
  have hreq : ∀ p ∈ sig, p.dflt = none → p.name ∈ params.keys := by
    intro p hp hd
    apply a2
    simp only [fromCallable]
    exact List.mem_map.2 ⟨p, List.mem_filter.2 ⟨hp, by simp [hd]⟩, rfl⟩
  have hargs : ∀ p ∈ sig, p.name ∈ args.keys ↔ p.name ∈ params.keys := by
    intro p hp
    rw [a3]
    constructor
    · intro hm; simpa using (List.mem_filter.1 hm).2
    · intro hm; exact List.mem_filter.2 ⟨List.mem_map.2 ⟨p, hp, rfl⟩, by simpa using hm⟩
  obtain ⟨out, b1, b2, b3⟩ := bindLoop_spec args sig hn (fun p hp hd => (hargs p hp).2 (hreq p hp hd))
  refine ⟨out, ?_, b2, ?_⟩
  · unfold Controller.bind
    rw [if_neg, b1]
    simp only [List.any_eq_true, not_exists, not_and, Bool.not_eq_true', decide_eq_false_iff_not,
      Decidable.not_not]
    intro k hk'
    rw [a3] at hk'
    exact (List.mem_filter.1 hk').1
  · intro p hp
    obtain ⟨c1, c2⟩ := b3 p hp
    refine ⟨?_, ?_⟩
    · intro v hv
      obtain ⟨w, w1, w2⟩ := a4 p.name p.vmeta v (by
        simp only [fromCallable]; exact List.mem_map.2 ⟨p, hp, rfl⟩) hv
      exact ⟨w, w1, c1 w w2⟩
    · intro hno
      have hno2 : Dict.get? args p.name = none := by
        rw [Dict.get?_none_iff] at hno ⊢
        intro hc; exact hno ((hargs p hp).1 hc)
      cases hd : p.dflt with
      | none => exact absurd (hreq p hp hd) (Dict.get?_none_iff.1 hno)
      | some d => exact ⟨d, rfl, c2 hno2 d hd⟩

/-! ### Examples, and what the code does not do -/

def demoMethod : Method :=
  { takes := { elements := [("a", .num .int32), ("b", .str)], required := ["a"] },
    returns := { elements := [], required := [] },
    defaults := [("b", .col (.scalar (.str "changed default")))], writeable := true }

def demoEnv : Env where
  ext := Props.Metas.demo
  putFn n := if n = "x" then some (setValue Props.Metas.demo "x") else none
  postFn n := if n = "go" then some (fun b _ => (b, .ok .none)) else none
  tree _ := .node "block" []

def demoBlock : Block :=
  [("meta", .other), ("x", .attr { vmeta := .num .int32, value := .col (.scalar (.num .int32 0)), writeable := true }),
   ("go", .method demoMethod)]

example : (handlePut demoEnv demoBlock ["mri", "x", "value"] (.col (.scalar (.int 5))) false).2.1 =
    [.put "x" (.col (.scalar (.num .int32 5)))] := by decide +kernel

example : Dict.get? (handlePut demoEnv demoBlock ["mri", "x", "value"] (.col (.scalar (.int 5))) false).1 "x" =
    some (.attr { vmeta := .num .int32, value := .col (.scalar (.num .int32 5)), writeable := true }) := by
  decide +kernel

example : (handlePost demoEnv demoBlock ["mri", "go"] [("a", .col (.scalar (.int 5)))]).2.1 =
    [.post "go" [("a", .col (.scalar (.num .int32 5)))]] := by decide +kernel

/-- a case of `put_answer` and of `post_answer` -/
example : (match (handle demoEnv demoBlock (.put 3 4 ["mri", "x", "value"] (.col (.scalar (.int 5))) true)).responses with
    | [(c, .ret i (.val v))] => decide (c = 4 ∧ i = 3 ∧ v = .col (.scalar (.num .int32 5)))
    | _ => false) = true ∧
    (match (handle demoEnv demoBlock (.post 3 4 ["mri", "go"] [("a", .col (.scalar (.int 5)))])).responses with
    | [(c, .ret i (.ret r))] => decide (c = 4 ∧ i = 3 ∧ r = .none)
    | _ => false) = true := by constructor <;> decide +kernel

/-- A default published in the MethodMeta is not filled in by the request: the method above has one
for `b`, a Post without `b` does not pass it. (The Python function's own default applies.) -/
theorem published_default_not_filled :
    Dict.get? demoMethod.defaults "b" = some (.col (.scalar (.str "changed default"))) ∧
    (handlePost demoEnv demoBlock ["mri", "go"] [("a", .col (.scalar (.int 5)))]).2.1 =
      [.post "go" [("a", .col (.scalar (.num .int32 5)))]] := by
  constructor <;> decide +kernel

/-- A method whose result cannot be logged is answered by an Error although it ran. -/
theorem post_error_after_success :
    ∃ env b, (handlePost env b ["mri", "go"] []).2.1 = [.post "go" []] ∧
      (∀ b', (env.postFn "go").map (fun f => (f b' []).2) = some (.ok (.value (.col (.scalar (.int 1)))))) ∧
      ∃ e, (handlePost env b ["mri", "go"] []).2.2 = .error e := by
  refine ⟨{ demoEnv with postFn := fun _ => some (fun b _ => (b, .ok (.value (.col (.scalar (.int 1)))))) },
    [("go", .method { takes := ⟨[], []⟩, returns := ⟨[], []⟩, writeable := true })], ?_, ?_, .type, ?_⟩
  · rfl
  · intro b'; rfl
  · rfl

end Verif.Props.Controller
