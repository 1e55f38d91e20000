import Verif.Spec.View
import Verif.Model.Fields
import Verif.Proofs.PyDict
/-! C91: what a view of a block gives and sends. -/
set_option linter.unusedVariables false
namespace Verif.Props.View
open Verif Verif.Meta Verif.View

/-! ### names -/

theorem setOwn_iff (props : List String) (ns : List String) (inst : Dict String Got)
    (hm : "mri" ∉ ns) : (setOwn props ns inst).isSome ↔ ∀ n ∈ ns, n ∉ props := by
  induction ns generalizing inst with
  | nil => simp [setOwn]
  | cons n ns ih =>
    simp only [List.mem_cons, not_or] at hm
    unfold setOwn setattr
    by_cases h : n ∈ props
    · simp [h]
    · have : ¬ (n ∈ props ∨ n = "mri") := by
        rintro (h' | h')
        · exact h h'
        · exact hm.1 h'.symm
      rw [if_neg this]
      dsimp only
      rw [ih _ hm.2]
      simp [h]

theorem async_ne_mri (n : String) : n ++ "_async" ≠ "mri" := by
  intro h
  have := congrArg String.length h
  rw [String.length_append] at this
  have h2 : "_async".length = 6 := by decide
  have h3 : "mri".length = 3 := by decide
  omega

theorem setAsync_iff (props : List String) (d : Data) (inst : Dict String Got) :
    (setAsync props d inst).isSome ↔ ∀ n, (n, Kind.method) ∈ d → n ++ "_async" ∉ props := by
  induction d generalizing inst with
  | nil => simp [setAsync]
  | cons p d ih =>
    obtain ⟨n, k⟩ := p
    cases k with
    | other =>
      unfold setAsync
      rw [ih]
      simp
    | method =>
      unfold setAsync setattr
      by_cases h : n ++ "_async" ∈ props
      · simp only [h, true_or, if_true, Option.isSome_none, Bool.false_eq_true, false_iff]
        intro hc
        exact hc n List.mem_cons_self h
      · have : ¬ (n ++ "_async" ∈ props ∨ n ++ "_async" = "mri") := by
          rintro (h' | h')
          · exact h h'
          · exact async_ne_mri n h'
        rw [if_neg this]
        dsimp only
        rw [ih]
        constructor
        · intro hh m hm
          rcases List.mem_cons.1 hm with h1 | h1
          · cases h1; exact h
          · exact hh m h1
        · intro hh m hm
          exact hh m (List.mem_cons_of_mem _ hm)

/-- C91, in part: a view of a block can be made exactly if no field has the name of one of the four
attributes every view has, and no method has an `_async` name that is the name of a field too. Missing:
that it can always be made, which is false (`typeid_field`, `async_field`). -/
theorem view_made_partial (data : Data) :
    (make data).isSome ↔ (∀ n ∈ own, n ∉ data.keys) ∧
      ∀ n, (n, Kind.method) ∈ data → n ++ "_async" ∉ data.keys := by
  unfold make
  rw [← setOwn_iff data.keys own [] (by decide)]
  cases h : setOwn data.keys own [] with
  | none => simp
  | some inst =>
    dsimp only
    rw [← setAsync_iff data.keys data inst]
    cases h2 : setAsync data.keys data inst <;> simp

theorem make_props {data : Data} {v : Block} (h : make data = some v) : v.props = data.keys := by
  unfold make at h
  cases h1 : setOwn data.keys own [] with
  | none => rw [h1] at h; cases h
  | some inst =>
    rw [h1] at h
    dsimp only at h
    cases h2 : setAsync data.keys data inst with
    | none => rw [h2] at h; cases h
    | some inst' => rw [h2] at h; cases h; rfl

theorem camel_no_underscore {l : List Char} (h : Fields.camelRe l = true) : '_' ∉ l := by
  have hr : ∀ l : List Char, Fields.camelRest l = true → '_' ∉ l := by
    intro l
    induction l with
    | nil => simp
    | cons c cs ih =>
      intro h hm
      unfold Fields.camelRest at h
      split at h
      · rename_i hc
        rcases List.mem_cons.1 hm with h1 | h1
        · subst h1; revert hc; decide
        · exact ih h h1
      · unfold Fields.atEnd at h
        split at h
        · rename_i he; cases he
        · rename_i he
          rw [he] at hm
          revert hm; decide
        · cases h
  intro hm
  cases l with
  | nil => cases hm
  | cons c cs =>
    unfold Fields.camelRe at h
    simp only [Bool.and_eq_true] at h
    rcases List.mem_cons.1 hm with h1 | h1
    · subst h1; have := h.1; revert this; decide
    · exact hr cs h.2 h1

/-- C91. For blocks whose fields have the names that parts may give them (C22) a view can be made
exactly if no field is called `typeid`. -/
theorem camel_view_made (data : Data) (hc : ∀ n ∈ data.keys, Fields.camelRe n.toList = true) :
    (make data).isSome ↔ "typeid" ∉ data.keys := by
  rw [view_made_partial]
  have hu : ∀ n ∈ data.keys, '_' ∉ n.toList := fun n hn => camel_no_underscore (hc n hn)
  constructor
  · intro h; exact h.1 _ (by simp [own])
  · intro h
    refine ⟨?_, ?_⟩
    · intro n hn hm
      simp only [own, List.mem_cons, List.not_mem_nil, or_false] at hn
      rcases hn with rfl | rfl | rfl | rfl
      · exact h hm
      · exact hu _ hm (by decide)
      · exact hu _ hm (by decide)
      · exact hu _ hm (by decide)
    · intro n _ hm
      refine hu _ hm ?_
      rw [String.toList_append]
      exact List.mem_append_right _ (by decide)

/-- C91. Every field a block had when the view was made is got by its name, as it is now, whatever
its name is; and KeyError if it is no longer there. -/
theorem field_got {data : Data} {v : Block} (h : make data = some v) (now : Data) (n : String)
    (hn : n ∈ data.keys) : v.get now n = match Dict.get? now n with
      | some k => .field n k
      | none => .keyError := by
  unfold Block.get
  rw [make_props h, if_pos hn]
  rfl

theorem setOwn_get {props ns : List String} {inst inst' : Dict String Got} (h : setOwn props ns inst = some inst')
    (n : String) : Dict.get? inst' n = if n ∈ ns then some (.own n) else Dict.get? inst n := by
  induction ns generalizing inst with
  | nil => cases h; simp
  | cons m ns ih =>
    unfold setOwn setattr at h
    by_cases hp : m ∈ props ∨ m = "mri"
    · rw [if_pos hp] at h; cases h
    · rw [if_neg hp] at h
      have := ih h
      rw [this]
      by_cases h1 : n ∈ ns
      · simp [h1]
      · rw [if_neg h1, Dict.get?_set]
        by_cases h2 : n = m
        · subst h2; simp
        · have h3 : ¬ m = n := fun hc => h2 hc.symm
          simp [h1, h2, h3]

theorem append_inj {a b s : String} (h : a ++ s = b ++ s) : a = b := by
  have h1 := congrArg String.toList h
  rw [String.toList_append, String.toList_append] at h1
  have := List.append_cancel_right h1
  exact String.toList_inj.1 this

theorem setAsync_get {props : List String} {d : Data} {inst inst' : Dict String Got}
    (h : setAsync props d inst = some inst') (n : String) :
    ((n, Kind.method) ∈ d → Dict.get? inst' (n ++ "_async") = some (.async n)) ∧
    ((n, Kind.method) ∉ d → Dict.get? inst' (n ++ "_async") = Dict.get? inst (n ++ "_async")) ∧
    ∀ x, (∀ m, (m, Kind.method) ∈ d → x ≠ m ++ "_async") → Dict.get? inst' x = Dict.get? inst x := by
  induction d generalizing inst with
  | nil => cases h; simp
  | cons p d ih =>
    obtain ⟨m, k⟩ := p
    cases k with
    | other =>
      unfold setAsync at h
      obtain ⟨a, b, c⟩ := ih h
      refine ⟨?_, ?_, ?_⟩
      · intro hm; exact a (by simpa using hm)
      · intro hm; exact b (by simpa using hm)
      · intro x hx; exact c x (fun m' hm' => hx m' (List.mem_cons_of_mem _ hm'))
    | method =>
      unfold setAsync setattr at h
      by_cases hp : m ++ "_async" ∈ props ∨ m ++ "_async" = "mri"
      · rw [if_pos hp] at h; cases h
      · rw [if_neg hp] at h
        obtain ⟨a, b, c⟩ := ih h
        refine ⟨?_, ?_, ?_⟩
        · intro hm
          by_cases hd : (n, Kind.method) ∈ d
          · exact a hd
          · rw [b hd]
            have : n = m := by
              rcases List.mem_cons.1 hm with h1 | h1
              · cases h1; rfl
              · exact absurd h1 hd
            subst this
            rw [Dict.get?_set_self]
        · intro hm
          simp only [List.mem_cons, not_or] at hm
          rw [b hm.2, Dict.get?_set_ne]
          intro hc
          have hne : n ≠ m := fun hh => hm.1 (by rw [hh])
          first
          | exact hne (append_inj hc)
          | exact hne (append_inj hc.symm)
        · intro x hx
          rw [c x (fun m' hm' => hx m' (List.mem_cons_of_mem _ hm')), Dict.get?_set_ne]
          have := hx m List.mem_cons_self
          first
          | exact this
          | exact fun hc => this hc.symm

/-- C91. Every method the block had when the view was made has its `_async` function. -/
theorem async_got {data : Data} {v : Block} (h : make data = some v) (now : Data) (n : String)
    (hn : (n, Kind.method) ∈ data) : v.get now (n ++ "_async") = .async n := by
  have hm : (make data).isSome := by rw [h]; rfl
  have hp := ((view_made_partial data).1 hm).2 n hn
  unfold Block.get
  rw [make_props h, if_neg hp, if_neg (async_ne_mri n)]
  unfold make at h
  cases h1 : setOwn data.keys own [] with
  | none => rw [h1] at h; cases h
  | some inst =>
    rw [h1] at h
    dsimp only at h
    cases h2 : setAsync data.keys data inst with
    | none => rw [h2] at h; cases h
    | some inst' =>
      rw [h2] at h
      cases h
      rw [(setAsync_get h2 n).1 hn]

/-- C91, in part: a field added to the block after the view was made is got by its name, unless the
name is that of something every view has or the `_async` name of a method. Missing: those names, for
which it is false (`late_field_hidden`). -/
theorem late_field_got_partial {data : Data} {v : Block} (h : make data = some v) (now : Data) (n : String)
    (k : Kind) (hk : Dict.get? now n = some k) (h1 : n ∉ own) (h2 : n ∉ members) (h3 : n ≠ "mri")
    (h4 : ∀ m, (m, Kind.method) ∈ data → n ≠ m ++ "_async") : v.get now n = .field n k := by
  by_cases hp : n ∈ data.keys
  · rw [field_got h now n hp, hk]
  · unfold Block.get
    rw [make_props h, if_neg hp, if_neg h3]
    unfold make at h
    cases h5 : setOwn data.keys own [] with
    | none => rw [h5] at h; cases h
    | some inst =>
      rw [h5] at h
      dsimp only at h
      cases h6 : setAsync data.keys data inst with
      | none => rw [h6] at h; cases h
      | some inst' =>
        rw [h6] at h
        cases h
        rw [(setAsync_get h6 n).2.2 n h4, setOwn_get h5, if_neg h1]
        simp only [Dict.get?]
        rw [if_neg h2]
        unfold child; rw [hk]

-- a block with a method, and an attribute that has the name of a function of views
example :
    let data : Data := [("meta", .other), ("configure", .method), ("mri", .other)]
    ∃ v, make data = some v ∧ v.get data "configure" = .field "configure" .method ∧
      v.get data "configure_async" = .async "configure" ∧ v.get data "mri" = .field "mri" .other ∧
      v.get data "x" = .keyError ∧ v.get (("x", .other) :: data) "x" = .field "x" .other ∧
      v.get data "to_dict" = .member "to_dict" ∧ v.get data "typeid" = .own "typeid" :=
  ⟨_, rfl, by decide, by decide, by decide, by decide, by decide, by decide, by decide⟩

/-- Disagreement with C91: a field called `typeid`, a name that parts may use, and there is no view of
the block. -/
theorem typeid_field : Fields.camelRe "typeid".toList = true ∧
    make [("meta", .other), ("typeid", .other)] = none := by decide

/-- Disagreement with C91: a block (of another server, say) with a method and a field that has the
name of its `_async` function cannot be viewed. -/
theorem async_field : make [("meta", .other), ("run", .method), ("run_async", .other)] = none := by decide

/-- Disagreement with C91: a field added later is hidden by a function of the view. -/
theorem late_field_hidden :
    ∃ v, make [("meta", .other)] = some v ∧
      v.get [("meta", .other), ("mri", .other)] "mri" = .mri := ⟨_, rfl, by decide⟩

/-! ### items -/

/-- Disagreement with C91: indexing the view of an attribute with a name it does not have gives an
object instead of raising. -/
theorem missing_item_returned : item attributeGet "missing" = .keyErrorObject := by decide

/-- C91. Indexing gives what `getattr` gives, for names that are there. -/
theorem item_got {X : Type} (getattr : String → Item X) (n : String) (x : X) (h : getattr n = .value x) :
    item getattr n = .value x := by unfold item; rw [h]

/-! ### calling a method -/

theorem addPositional_spec {X : Type} (zs : List (String × X)) (hn : (Dict.keys zs).Nodup) (kwargs : Dict String X) :
    ((addPositional zs kwargs).isSome ↔ ∀ k ∈ Dict.keys zs, k ∉ kwargs.keys) ∧
    ∀ d, addPositional zs kwargs = some d → ∀ k, Dict.get? d k = match Dict.get? zs k with
      | some v => some v
      | none => Dict.get? kwargs k := by
  induction zs generalizing kwargs with
  | nil =>
    refine ⟨by simp [addPositional, Dict.keys], ?_⟩
    intro d h k
    cases h; rfl
  | cons p zs ih =>
    obtain ⟨n, x⟩ := p
    have hn' : n ∉ Dict.keys zs ∧ (Dict.keys zs).Nodup := by
      simpa [Dict.keys] using hn
    unfold addPositional
    by_cases hm : n ∈ kwargs.keys
    · rw [if_pos (Dict.mem_iff.2 hm)]
      refine ⟨?_, by simp⟩
      simp only [Option.isSome_none, Bool.false_eq_true, false_iff]
      intro hc
      exact hc n (by simp [Dict.keys]) hm
    · rw [if_neg (fun hc => hm (Dict.mem_iff.1 hc))]
      obtain ⟨h1, h2⟩ := ih hn'.2 (Dict.set kwargs n x)
      constructor
      · rw [h1]
        have hks : ∀ k, k ∈ (Dict.set kwargs n x).keys ↔ k ∈ kwargs.keys ∨ k = n := by
          intro k
          rw [Dict.keys_set]
          split
          · rename_i hh; exact absurd hh hm
          · simp
        constructor
        · intro h k hk
          rcases List.mem_cons.1 (show k ∈ n :: Dict.keys zs from hk) with he | he
          · rw [he]; exact hm
          · exact fun hc => h k he ((hks k).2 (.inl hc))
        · intro h k hk hc
          rcases (hks k).1 hc with h3 | h3
          · exact h k (show k ∈ n :: Dict.keys zs from List.mem_cons_of_mem _ hk) h3
          · exact hn'.1 (h3 ▸ hk)
      · intro d hd k
        rw [h2 d hd k, Dict.get?_cons]
        by_cases hk : n = k
        · subst hk
          have : Dict.get? zs n = none := (Dict.get?_none_iff).2 hn'.1
          rw [this, Dict.get?_set_self]; simp
        · rw [if_neg hk]
          have : Dict.get? (Dict.set kwargs n x) k = Dict.get? kwargs k := by
            rw [Dict.get?_set_ne]
            first | exact hk | exact fun hc => hk hc.symm
          rw [this]

theorem keys_zip {X : Type} (takes : List String) (args : List X) :
    Dict.keys (takes.zip args) = takes.take args.length := by
  induction takes generalizing args with
  | nil => simp [Dict.keys]
  | cons t ts ih =>
    cases args with
    | nil => simp [Dict.keys]
    | cons a as => simpa [Dict.keys] using ih as

/-- C91. A call is refused exactly if a name is given both by position and by keyword; otherwise the
Post has the arguments under the names they have in the method's signature. -/
theorem call_by_name {X : Type} (takes : List String) (hn : takes.Nodup) (args : List X) (kwargs : Dict String X) :
    ((post takes args kwargs).isSome ↔ ∀ k ∈ takes.take args.length, k ∉ kwargs.keys) ∧
    ∀ d, post takes args kwargs = some d → Named takes args kwargs d := by
  have hz : (Dict.keys (takes.zip args)).Nodup := by
    rw [keys_zip]
    exact hn.sublist (List.take_sublist _ _)
  have := addPositional_spec (takes.zip args) hz kwargs
  rw [keys_zip] at this
  exact this

theorem validateMap_congr (e : Ext) (mm : MapMeta) (p p' : Dict String Val) (b : Bool)
    (h : ∀ k, Dict.get? p k = Dict.get? p' k) : e.validateMap mm p b = e.validateMap mm p' b := by
  have hk : ∀ k, k ∈ p.keys ↔ k ∈ p'.keys := by
    intro k
    rw [← Dict.mem_iff, ← Dict.mem_iff]
    unfold Dict.mem
    rw [h k]
  have hl : ∀ els, e.mapLoop p b els = e.mapLoop p' b els := by
    intro els
    induction els with
    | nil => rfl
    | cons q els ih =>
      obtain ⟨k, m⟩ := q
      unfold Ext.mapLoop
      rw [h k, ih]
  unfold Ext.validateMap
  have ha : p.keys.any (fun k => !decide (k ∈ mm.elements.keys)) =
      p'.keys.any (fun k => !decide (k ∈ mm.elements.keys)) := by
    rw [Bool.eq_iff_iff, List.any_eq_true, List.any_eq_true]
    constructor
    · rintro ⟨k, h1, h2⟩; exact ⟨k, (hk k).1 h1, h2⟩
    · rintro ⟨k, h1, h2⟩; exact ⟨k, (hk k).2 h1, h2⟩
  rw [ha, hl]

/-- The controller does with a Post what it does with any other that gives the same parameters. -/
theorem post_congr (env : Controller.Env) (b : Controller.Block) (path : List String) (p p' : Dict String Val)
    (h : ∀ k, Dict.get? p k = Dict.get? p' k) :
    Controller.handlePost env b path p = Controller.handlePost env b path p' := by
  unfold Controller.handlePost
  simp only [validateMap_congr env.ext _ p p' false h]

/-- C91, in part: a call with no more positional arguments than the method takes has the same effect
and answer as the call with all of them named. Missing: more arguments, which Python would refuse
(`surplus_arguments_dropped`). -/
theorem positional_as_named_partial (env : Controller.Env) (b : Controller.Block) (path : List String)
    (takes : List String) (hn : takes.Nodup) (args : List Val) (hlen : args.length ≤ takes.length)
    (kwargs d named : Dict String Val) (h : post takes args kwargs = some d)
    (hnamed : ∀ i (hi : i < args.length), Dict.get? named (takes[i]'(by omega)) = some args[i])
    (hrest : ∀ k, k ∉ takes.take args.length → Dict.get? named k = Dict.get? kwargs k) :
    Controller.handlePost env b path d = Controller.handlePost env b path named := by
  apply post_congr
  intro k
  rw [(call_by_name takes hn args kwargs).2 d h k]
  by_cases hk : k ∈ takes.take args.length
  · obtain ⟨i, hi, hk2⟩ := List.getElem_of_mem hk
    rw [List.length_take] at hi
    have hi1 : i < args.length := by omega
    have hi2 : i < takes.length := by omega
    rw [List.getElem_take] at hk2
    subst hk2
    have hz : (takes[i], args[i]) ∈ takes.zip args := by
      have hlt : i < (takes.zip args).length := by rw [List.length_zip]; omega
      have : (takes.zip args)[i] = (takes[i], args[i]) := List.getElem_zip
      rw [← this]; exact List.getElem_mem hlt
    have hnz : (Dict.keys (takes.zip args)).Nodup := by
      rw [keys_zip]; exact hn.sublist (List.take_sublist _ _)
    rw [Dict.get?_of_mem_nodup hnz hz, hnamed i hi1]
  · have : Dict.get? (takes.zip args) k = none := by
      rw [Dict.get?_none_iff, keys_zip]; exact hk
    rw [this, hrest k hk]

example : post ["a", "b", "c"] [1, 2] [("c", 3)] = some [("c", 3), ("a", 1), ("b", 2)] ∧
    post ["a", "b"] [1] [("a", 3)] = none := by decide

/-- Disagreement with C91: arguments beyond those the method takes are left out, and the call goes
ahead. -/
theorem surplus_arguments_dropped : post ["a"] [1, 2, 3] [] = some [("a", 1)] := by decide

/-! ### putting several values -/

theorem putLoop_fields {X : Type} {data : Data} {v : Block} (hv : make data = some v) (now : Data)
    (sent items : List (String × X)) (h : ∀ p ∈ items, p.1 ∈ data.keys ∧ (Dict.get? now p.1).isSome) :
    putLoop v now sent items = (sent ++ items, .sent) := by
  induction items generalizing sent with
  | nil => simp [putLoop]
  | cons p items ih =>
    obtain ⟨n, x⟩ := p
    unfold putLoop
    obtain ⟨h1, h2⟩ := h (n, x) List.mem_cons_self
    rw [field_got hv now n h1]
    cases hg : Dict.get? now n with
    | none => rw [hg] at h2; cases h2
    | some k =>
      dsimp only
      rw [ih _ (fun p hp => h p (List.mem_cons_of_mem _ hp))]
      simp

/-- C91. If all the names are fields of the block then `put_attribute_values` puts each of the values
given to its attribute, once and nothing else, in the order given or for a plain dictionary in the
order of the names. -/
theorem values_put {X : Type} {data : Data} {v : Block} (hv : make data = some v) (now : Data) (plain : Bool)
    (params : Dict String X) (hn : params.keys.Nodup)
    (h : ∀ n ∈ params.keys, n ∈ data.keys ∧ (Dict.get? now n).isSome) :
    (putValues v now plain params).2 = .sent ∧
    (plain = false → (putValues v now plain params).1 = params) ∧
    (plain = true → (putValues v now plain params).1.Perm params ∧
      (putValues v now plain params).1.Pairwise (fun a b => a.1 < b.1)) := by
  have hle_tot : ∀ a b : String × X, (decide (a.1 ≤ b.1) || decide (b.1 ≤ a.1)) = true := by
    intro a b
    rcases String.le_total a.1 b.1 with h1 | h1 <;> simp [h1]
  have hle_tr : ∀ a b c : String × X, decide (a.1 ≤ b.1) = true → decide (b.1 ≤ c.1) = true →
      decide (a.1 ≤ c.1) = true := by
    intro a b c h1 h2
    simp only [decide_eq_true_eq] at *
    exact String.le_trans h1 h2
  cases plain with
  | false =>
    have := putLoop_fields hv now [] params (fun p hp => h p.1 (List.mem_map.2 ⟨p, hp, rfl⟩))
    simp [putValues, this]
  | true =>
    have hp := List.mergeSort_perm params (fun a b => decide (a.1 ≤ b.1))
    have := putLoop_fields hv now [] (params.mergeSort (fun a b => decide (a.1 ≤ b.1)))
      (fun p hp' => h p.1 (List.mem_map.2 ⟨p, hp.subset hp', rfl⟩))
    simp only [putValues, if_true, this, List.nil_append, reduceCtorEq, false_implies, true_and, true_implies,
      Bool.true_eq_false]
    refine ⟨hp, ?_⟩
    have hs := List.pairwise_mergeSort hle_tr hle_tot params
    have hnd : (params.mergeSort (fun a b => decide (a.1 ≤ b.1))).Pairwise (fun a b => a.1 ≠ b.1) := by
      have h1 : ((params.mergeSort (fun a b => decide (a.1 ≤ b.1))).map (·.1)).Nodup :=
        ((hp.map (fun p : String × X => p.1)).nodup_iff).2 hn
      unfold List.Nodup at h1
      rwa [List.pairwise_map] at h1
    have hb := hs.and hnd
    refine hb.imp ?_
    intro a b hab
    simp only [decide_eq_true_eq] at hab
    by_cases hlt : a.1 < b.1
    · exact hlt
    · exact absurd (String.le_antisymm hab.1 (String.not_lt.1 hlt)) hab.2

/-- Disagreement with C91: a name that is no field is found only when its turn comes: the values
before it have been put, and the error is KeyError and not the assertion. -/
theorem part_put_before_error :
    ∃ v, make [("meta", .other), ("a", .other)] = some v ∧
      putValues v [("meta", .other), ("a", .other)] false [("a", 1), ("b", 2)] = ([("a", 1)], .keyError) :=
  ⟨_, rfl, by decide⟩

end Verif.Props.View
