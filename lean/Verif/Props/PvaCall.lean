import Verif.Spec.PvaCall
import Verif.Proofs.PyDict
import Verif.Props.Pva
/-!
**C107**: a method called over pvAccess is called once with what was given, and its outcome comes back.
-/
namespace Verif.Props.PvaCall
open Verif Verif.Pva Verif.PvaCall Verif.Spec.Pva Verif.Spec.PvaCall

theorem behind_self (pre : Text) : ∀ rest, behind pre (pre ++ rest) = some rest := by
  induction pre with
  | nil => intro rest; rfl
  | cons c pre ih => intro rest; simp [behind, ih]

theorem behind_some : ∀ (pre path rest : Text), behind pre path = some rest → path = pre ++ rest
  | [], path, rest, h => by simp [behind] at h; simp [h]
  | c :: pre, [], rest, h => by simp [behind] at h
  | c :: pre, d :: path, rest, h => by
    simp only [behind] at h
    split at h
    · rename_i hc; rw [behind_some pre path rest h, hc]; rfl
    · cases h

/-- **C107**: a value sent to the channel of a field calls the method of that name with this value. -/
theorem field_called (b : Blk) (f : Text) (v : Pv) (req : Option Text) (m : Meth)
    (hm : Dict.get? b.fields f = some (.method m)) :
    rpc b (some f) ⟨.plain v, req⟩ = ((handlePost b f (back v)).1, answer m.unpacked (handlePost b f (back v)).2) := by
  simp only [rpc, target, hm]

/-- **C107**: a URI with the name of the block and of a method calls that method, with the query, whatever the channel. -/
theorem uri_called (b : Blk) (field : Option Text) (name : Text) (q : Pv) (req : Option Text) (m : Meth)
    (hm : Dict.get? b.fields name = some (.method m)) :
    rpc b field ⟨.uri "pva".toList (b.mri ++ '.' :: name) q, req⟩ =
      ((handlePost b name (back q)).1, answer m.unpacked (handlePost b name (back q)).2) := by
  have h : behind (b.mri ++ ['.']) (b.mri ++ '.' :: name) = some name := by
    have := behind_self (b.mri ++ ['.']) name
    simpa using this
  simp only [rpc, target, if_true, h, Option.map_some, hm]

/-- **C107**: a URI of another scheme or block calls nothing, and is answered with an error. -/
theorem uri_refused (b : Blk) (field : Option Text) (scheme path : Text) (q : Pv) (req : Option Text)
    (h : scheme ≠ "pva".toList ∨ ∀ name, path ≠ b.mri ++ '.' :: name) :
    (rpc b field ⟨.uri scheme path q, req⟩).1 = [] ∧ ∃ e, (rpc b field ⟨.uri scheme path q, req⟩).2 = .error e := by
  have ht : target b.mri field ⟨.uri scheme path q, req⟩ = none := by
    unfold target
    dsimp only
    split
    · rename_i hs
      cases h with
      | inl h => exact absurd hs h
      | inr h =>
        cases hb : behind (b.mri ++ ['.']) path with
        | none => rfl
        | some r => exact absurd (by simpa using behind_some _ _ _ hb) (h r)
    · rfl
  unfold rpc
  rw [ht]
  exact ⟨rfl, _, rfl⟩

/-- **C107**: without a method of that name nothing is called, and there is an error. -/
theorem no_method (b : Blk) (field : Option Text) (op : Op)
    (h : ∀ name p m, target b.mri field op = some (name, p) → Dict.get? b.fields name ≠ some (.method m)) :
    (rpc b field op).1 = [] ∧ ∃ e, (rpc b field op).2 = .error e := by
  unfold rpc
  split
  · exact ⟨rfl, _, rfl⟩
  · rename_i name p ht
    split
    · exact ⟨rfl, _, rfl⟩
    · exact ⟨rfl, _, rfl⟩
    · rename_i m hm; exact absurd hm (h name p m ht)

/-- What a call through the network comes to -/
theorem sendPost_eq (b : Blk) (name : Text) (params : Py) (m : Meth) (hm : Dict.get? b.fields name = some (.method m))
    (hs : sendable params) :
    sendPost b name params =
      ((handlePost b name (plain params)).1, (answer m.unpacked (handlePost b name (plain params)).2).map back) := by
  obtain ⟨q, hq⟩ := (Props.Pva.conv_some params).2 hs
  unfold sendPost
  rw [hq]
  dsimp only
  have h := uri_called b none name q none m hm
  rw [← Props.Pva.back_conv params q hq]
  have e : b.mri ++ ['.'] ++ name = b.mri ++ '.' :: name := by simp
  rw [e, h]

theorem toValue_map (v : Py) (hv : isMap v) (hs : sendable v) : ∃ w, toValue v = some w ∧ back w = plain v := by
  obtain ⟨t, fs, rfl⟩ := hv
  obtain ⟨w, hw⟩ := (Props.Pva.conv_some _).2 hs
  exact ⟨w, by rw [toValue, hw]; rfl, Props.Pva.back_conv _ _ hw⟩

/-- **C107** in part: a call with parameters that can be sent does what the same call does at the server, once. An error comes
back as that error, and a map that can be sent comes back as the same data. Missing: what is returned and is not a map
(`one_value`, `no_value`). -/
theorem as_there_partial (b : Blk) (name : Text) (params : Py) (m : Meth) (hm : Dict.get? b.fields name = some (.method m))
    (hs : sendable params) :
    (sendPost b name params).1 = (handlePost b name (plain params)).1 ∧
    (∀ e, (handlePost b name (plain params)).2 = .error e → (sendPost b name params).2 = .error e) ∧
    (∀ v, (handlePost b name (plain params)).2 = .ok v → m.unpacked = false → isMap v → sendable v →
      (sendPost b name params).2 = .ok (plain v)) := by
  rw [sendPost_eq b name params m hm hs]
  refine ⟨rfl, ?_, ?_⟩
  · intro e h
    dsimp only
    rw [h]
    rfl
  · intro v h hu hv hsv
    dsimp only
    rw [h, hu]
    obtain ⟨w, hw, hb⟩ := toValue_map v hv hsv
    simp [answer, hw, Except.map, hb]

/-- A method that returns one value gives a map with that value, when it is called through the network. -/
theorem one_value (b : Blk) (name : Text) (params : Py) (m : Meth) (hm : Dict.get? b.fields name = some (.method m))
    (hs : sendable params) (v : Py) (hv : (handlePost b name (plain params)).2 = .ok v) (hu : m.unpacked = true)
    (hsv : sendable v) : (sendPost b name params).2 = .ok (.dict none [("return", plain v)]) := by
  rw [sendPost_eq b name params m hm hs]
  dsimp only
  rw [hv, hu]
  obtain ⟨w, hw, hb⟩ := toValue_map (.dict none [("return", v)]) ⟨_, _, rfl⟩
    (by simp [sendable, sendableFields, hsv])
  simp [answer, hw, Except.map, hb, plain, plainFields]

/-- A method that returns nothing gives an empty map. -/
theorem no_value (b : Blk) (name : Text) (params : Py) (m : Meth) (hm : Dict.get? b.fields name = some (.method m))
    (hs : sendable params) (hv : (handlePost b name (plain params)).2 = .ok .none) (hu : m.unpacked = false) :
    (sendPost b name params).2 = .ok (.dict none []) := by
  rw [sendPost_eq b name params m hm hs]
  dsimp only
  rw [hv, hu]
  simp [answer, toValue, asObj, Except.map, back, backFields]

/-- A result that cannot be sent is an error, although the method was called. -/
theorem result_lost (b : Blk) (name : Text) (params : Py) (m : Meth) (hm : Dict.get? b.fields name = some (.method m))
    (hs : sendable params) (v : Py) (hv : (handlePost b name (plain params)).2 = .ok v) (hn : ¬ sendable v)
    (hnone : m.unpacked = true ∨ v ≠ .none) :
    (sendPost b name params).1 = (handlePost b name (plain params)).1 ∧ ∃ e, (sendPost b name params).2 = .error e := by
  rw [sendPost_eq b name params m hm hs]
  refine ⟨rfl, ?_⟩
  dsimp only
  rw [hv]
  have hc : conv v = none := by
    cases h : conv v with
    | none => rfl
    | some w => exact absurd ((Props.Pva.conv_some v).1 ⟨w, h⟩) hn
  have ht : toValue (if m.unpacked = true then .dict none [("return", v)] else v) = none := by
    cases hu : m.unpacked with
    | true => simp [toValue, asObj, conv, convFields, hc]
    | false =>
      have hne : v ≠ .none := by
        cases hnone with
        | inl h => rw [hu] at h; cases h
        | inr h => exact h
      simp only [Bool.false_eq_true, if_false, toValue]
      cases v <;> first | exact absurd rfl hne | exact hc | rfl
  simp [answer, ht, Except.map]

/-- **C107**: parameters that cannot be sent, a method that is not there or not writeable, or parameters that it does not take:
nothing is called and there is an error. -/
theorem not_called (b : Blk) (name : Text) (params : Py)
    (h : ¬ sendable params ∨ (∀ m, Dict.get? b.fields name ≠ some (.method m)) ∨
      ∃ m, Dict.get? b.fields name = some (.method m) ∧ (m.writeable = false ∨ m.validate (plain params) = none)) :
    (sendPost b name params).1 = [] ∧ ∃ e, (sendPost b name params).2 = .error e := by
  by_cases hs : sendable params
  · cases h with
    | inl h => exact absurd hs h
    | inr h =>
      cases h with
      | inl h =>
        obtain ⟨q, hq⟩ := (Props.Pva.conv_some params).2 hs
        unfold sendPost
        rw [hq]
        dsimp only
        have e : b.mri ++ ['.'] ++ name = b.mri ++ '.' :: name := by simp
        obtain ⟨h1, err, h2⟩ := no_method b none ⟨.uri "pva".toList (b.mri ++ ['.'] ++ name) q, none⟩ (by
          intro n p m ht
          have hb := behind_self (b.mri ++ ['.']) name
          simp only [target, if_true, hb, Option.map_some, Option.some.injEq, Prod.mk.injEq] at ht
          rw [← ht.1]
          exact h m)
        exact ⟨h1, err, by rw [h2]; rfl⟩
      | inr h =>
        obtain ⟨m, hm, hr⟩ := h
        rw [sendPost_eq b name params m hm hs]
        have hp : ∃ e, handlePost b name (plain params) = ([], .error e) := by
          unfold handlePost
          rw [hm]
          dsimp only
          split
          · exact ⟨_, rfl⟩
          · rename_i hw
            cases hr with
            | inl hr => exact absurd hr hw
            | inr hr => rw [hr]; exact ⟨_, rfl⟩
        obtain ⟨e, he⟩ := hp
        rw [he]
        exact ⟨rfl, e, rfl⟩
  · have hc : conv params = none := by
      cases h : conv params with
      | none => rfl
      | some w => exact absurd ((Props.Pva.conv_some _).1 ⟨w, h⟩) hs
    unfold sendPost
    rw [hc]
    exact ⟨rfl, _, rfl⟩

/-! ### Copies of copies -/

theorem get_plain (m : Py) (k : String) : Py.get (plain m) k = (Py.get m k).map plain := by
  cases m <;> simp only [plain, Py.get, Option.map_none]
  exact Props.Pva.field_plain _ _

theorem labelOf_plain (n : String) (m : Py) (s : String) (h : labelOf n m = some s) : labelOf n (plain m) = some s := by
  unfold labelOf at h ⊢
  rw [get_plain]
  split at h
  · rename_i x hx
    rw [hx]
    simpa [plain] using h
  · cases h

theorem labels_els : ∀ (els : List (String × Py)) (ls : List String),
    els.mapM (fun e => labelOf e.1 e.2) = some ls → (plainFields els).mapM (fun e => labelOf e.1 e.2) = some ls := by
  intro els
  induction els with
  | nil => intro ls h; rw [plainFields]; exact h
  | cons e els ih =>
    intro ls h
    obtain ⟨k, v⟩ := e
    rw [List.mapM_cons] at h
    rw [plainFields, List.mapM_cons]
    cases h1 : labelOf k v with
    | none => simp [h1] at h
    | some l =>
      cases h2 : els.mapM (fun e => labelOf e.1 e.2) with
      | none => simp [h1, h2] at h
      | some ls' =>
        simp only [h1, h2] at h
        rw [labelOf_plain k v l h1, ih ls' h2]
        exact h

theorem labels_plain (fs : List (String × Py)) (h : (labels fs).isSome = true) : (labels (plainFields fs)).isSome = true := by
  unfold labels at h ⊢
  rw [Props.Pva.field_plain]
  cases hm : field fs "meta" with
  | none => rw [hm] at h; simp at h
  | some m =>
    rw [hm] at h
    simp only [Option.bind_some, Option.map_some, get_plain] at h ⊢
    cases he : Py.get m "elements" with
    | none => rw [he] at h; simp at h
    | some x =>
      rw [he] at h
      cases x <;> simp at h
      rename_i t els
      simp only [Option.map_some, plain]
      cases hl : els.mapM (fun e => labelOf e.1 e.2) with
      | none => rw [hl] at h; simp at h
      | some ls => rw [labels_els els ls hl]; rfl

theorem table_plain (t : Option String) : (if t = some "structure" then none else t) = some ntTable ↔ t = some ntTable := by
  constructor
  · intro h; split at h
    · cases h
    · exact h
  · rintro rfl; rw [if_neg (by decide)]

mutual
theorem sendable_plain : ∀ v : Py, sendable v → sendable (plain v)
  | .none, h => by simp [sendable] at h
  | .str s, _ => by simp [plain, sendable]
  | .enum s, _ => by simp [plain, sendable]
  | .alarm n, _ => by simp [plain, sendable, specs]
  | .num spec x, h => by simpa [plain, sendable] using h
  | .nums spec x, h => by simpa [plain, sendable] using h
  | .strs xs, _ => by simp [plain, sendable]
  | .enums xs, _ => by simp [plain, sendable]
  | .objs vs, h => by
    rw [sendable] at h
    rw [plain, sendable]
    exact sendable_plainList vs h
  | .dict t fs, h => by
    rw [sendable] at h
    rw [plain, sendable, table_plain, Props.Pva.names_plain]
    exact ⟨sendable_plainFields fs h.1, fun ht => ⟨labels_plain fs (h.2 ht).1, (h.2 ht).2⟩⟩
theorem sendable_plainList : ∀ vs : List Py, sendableList vs → sendableList (plainList vs)
  | [], _ => by simp [plainList, sendableList]
  | v :: vs, h => by
    rw [sendableList] at h
    rw [plainList, sendableList]
    refine ⟨.inr ?_, sendable_plainList vs h.2⟩
    cases h.1 with
    | inl h1 => subst h1; simp [plain, sendable, sendableFields]
    | inr h1 =>
      have h3 := sendable_plain v h1.2
      obtain ⟨⟨t, fs, rfl⟩, _⟩ := h1
      rw [plain] at h3 ⊢
      exact ⟨⟨_, _, rfl⟩, h3⟩
theorem sendable_plainFields : ∀ fs : List (String × Py), sendableFields fs → sendableFields (plainFields fs)
  | [], _ => by simp [plainFields, sendableFields]
  | (k, v) :: fs, h => by
    rw [sendableFields] at h
    rw [plainFields, sendableFields]
    exact ⟨sendable_plain v h.1, sendable_plainFields fs h.2⟩
end

mutual
theorem plain_plain : ∀ v : Py, plain (plain v) = plain v
  | .none => by simp [plain]
  | .str s => by simp [plain]
  | .enum s => by simp [plain]
  | .alarm n => by simp [plain]
  | .num spec x => by simp [plain]
  | .nums spec x => by simp [plain]
  | .strs xs => by simp [plain]
  | .enums xs => by simp [plain]
  | .objs vs => by rw [plain, plain, plain_plainList vs]
  | .dict t fs => by
    rw [plain, plain, plain_plainFields fs]
    congr 1
    by_cases h : t = some "structure" <;> simp [h]
theorem plain_plainList : ∀ vs : List Py, plainList (plainList vs) = plainList vs
  | [] => by simp [plainList]
  | v :: vs => by
    rw [plainList, plainList, plain_plainList vs]
    congr 1
    have h := plain_plain v
    cases hv : plain v with
    | none => simp [plain, plainFields]
    | _ => rw [hv] at h; simp only [h]
theorem plain_plainFields : ∀ fs : List (String × Py), plainFields (plainFields fs) = plainFields fs
  | [] => by simp [plainFields]
  | (k, v) :: fs => by rw [plainFields, plainFields, plain_plain v, plain_plainFields fs]
end

theorem get_copy (b : Blk) (name : Text) (m : Meth) (fs : Dict Text Fld)
    (h : Dict.get? fs name = some (.method m)) :
    Dict.get? (fs.map (copyField b)) name = some (.method (copyMeth b name m)) := by
  induction fs with
  | nil => simp [Dict.get?] at h
  | cons f fs ih =>
    obtain ⟨k, v⟩ := f
    rw [Dict.get?] at h
    have hk : (copyField b (k, v)).1 = k := by unfold copyField; dsimp only; split <;> rfl
    rw [List.map_cons, show copyField b (k, v) = (k, (copyField b (k, v)).2) from Prod.ext hk rfl, Dict.get?]
    split at h
    · rename_i e
      subst e
      cases h
      rw [if_pos rfl]
      rfl
    · rename_i e
      rw [if_neg e]
      exact ih h

/-- The outcome one process further -/
def further (u : Bool) (r : List Call × Except String Py) : List Call × Except String Py := (r.1, (answer u r.2).map back)

/-- The outcome `n` processes further -/
def furtherN (u : Bool) (r : List Call × Except String Py) : Nat → List Call × Except String Py
  | 0 => r
  | n + 1 => further u (furtherN u r n)

theorem copies_run (b : Blk) (name : Text) (m : Meth) (hm : Dict.get? b.fields name = some (.method m)) (hw : m.writeable = true)
    (hl : Lawful m) (p q : Py) (hq : m.validate p = some q) (n : Nat) :
    ∃ mn, Dict.get? (copies b n).fields name = some (.method mn) ∧ mn.unpacked = m.unpacked ∧ mn.writeable = true ∧
      mn.validate = m.validate ∧ mn.run q = furtherN m.unpacked (m.run q) n := by
  induction n with
  | zero => exact ⟨m, hm, rfl, hw, rfl, rfl⟩
  | succ n ih =>
    obtain ⟨mn, h1, h2, h3, h4, h5⟩ := ih
    refine ⟨copyMeth (copies b n) name mn, get_copy _ name mn _ h1, h2, rfl, h4, ?_⟩
    show sendPost (copies b n) name q = _
    obtain ⟨_, hs, hv⟩ := hl p q hq
    rw [sendPost_eq _ name q mn h1 hs]
    have hp : handlePost (copies b n) name (plain q) = furtherN m.unpacked (m.run q) n := by
      unfold handlePost
      rw [h1]
      dsimp only
      rw [h3, if_neg (by decide), h4, hv]
      exact h5
    rw [hp, h2]
    rfl

theorem copies_post (b : Blk) (name : Text) (m : Meth) (hm : Dict.get? b.fields name = some (.method m)) (hw : m.writeable = true)
    (hl : Lawful m) (p q : Py) (hq : m.validate p = some q) (n : Nat) :
    handlePost (copies b n) name p = furtherN m.unpacked (m.run q) n := by
  obtain ⟨mn, h1, h2, h3, h4, h5⟩ := copies_run b name m hm hw hl p q hq n
  unfold handlePost
  rw [h1]
  dsimp only
  rw [h3, if_neg (by decide), h4, hq]
  exact h5

/-- **C107** in part: however many processes are in between, a call of the local copy calls what the same call of the block calls,
and an error comes back as it is. A map comes back as the same data. -/
theorem far_partial (b : Blk) (name : Text) (m : Meth) (hm : Dict.get? b.fields name = some (.method m)) (hw : m.writeable = true)
    (hl : Lawful m) (p q : Py) (hq : m.validate p = some q) (n : Nat) :
    (handlePost (copies b n) name p).1 = (m.run q).1 ∧
    (∀ e, (m.run q).2 = .error e → (handlePost (copies b n) name p).2 = .error e) ∧
    (∀ v, (m.run q).2 = .ok v → m.unpacked = false → isMap v → sendable v →
      ∃ w, (handlePost (copies b n) name p).2 = .ok w ∧ plain w = plain v) := by
  rw [copies_post b name m hm hw hl p q hq n]
  refine ⟨?_, ?_, ?_⟩
  · induction n with
    | zero => rfl
    | succ n ih => exact ih
  · intro e he
    induction n with
    | zero => exact he
    | succ n ih => show ((answer _ (furtherN m.unpacked (m.run q) n).2).map back) = _; rw [ih]; rfl
  · intro v hv hu hmap hs
    have : ∃ w, (furtherN m.unpacked (m.run q) n).2 = .ok w ∧ plain w = plain v ∧ isMap w ∧ sendable w := by
      induction n with
      | zero => exact ⟨v, hv, rfl, hmap, hs⟩
      | succ n ih =>
        obtain ⟨w, h1, h2, h3, h4⟩ := ih
        refine ⟨plain w, ?_, by rw [plain_plain, h2], ?_, sendable_plain w h4⟩
        · show ((answer m.unpacked (furtherN m.unpacked (m.run q) n).2).map back) = _
          rw [h1, hu]
          obtain ⟨x, hx, hb⟩ := toValue_map w h3 h4
          simp [answer, hx, Except.map, hb]
        · obtain ⟨t, fs, rfl⟩ := h3
          exact ⟨_, _, by rw [plain]⟩
    obtain ⟨w, h1, h2, _⟩ := this
    exact ⟨w, h1, h2⟩

theorem packed_plain (v : Py) (n : Nat) : plain (packed n v) = packed n (plain v) := by
  induction n with
  | zero => rfl
  | succ n ih => simp only [packed, plain, plainFields, ih, if_neg (show (none : Option String) ≠ some "structure" by simp)]

theorem packed_sendable (v : Py) (hs : sendable v) (n : Nat) : sendable (packed n v) := by
  induction n with
  | zero => exact hs
  | succ n ih => simp [packed, sendable, sendableFields, ih]

/-- What a method returns as one value is packed once more by each process in between. -/
theorem packed_often (b : Blk) (name : Text) (m : Meth) (hm : Dict.get? b.fields name = some (.method m)) (hw : m.writeable = true)
    (hl : Lawful m) (p q : Py) (hq : m.validate p = some q) (v : Py) (hv : (m.run q).2 = .ok v) (hu : m.unpacked = true)
    (hs : sendable v) (n : Nat) : (handlePost (copies b (n + 1)) name p).2 = .ok (packed (n + 1) (plain v)) := by
  rw [copies_post b name m hm hw hl p q hq (n + 1)]
  have hstep : ∀ k w, (furtherN m.unpacked (m.run q) k).2 = .ok w → sendable w →
      (furtherN m.unpacked (m.run q) (k + 1)).2 = .ok (.dict none [("return", plain w)]) := by
    intro k w h1 h4
    show ((answer m.unpacked (furtherN m.unpacked (m.run q) k).2).map back) = _
    rw [h1, hu]
    obtain ⟨x, hx, hb⟩ := toValue_map (.dict none [("return", w)]) ⟨_, _, rfl⟩ (by simp [sendable, sendableFields, h4])
    simp [answer, hx, Except.map, hb, plain, plainFields]
  induction n with
  | zero => exact hstep 0 v hv hs
  | succ n ih =>
    rw [hstep (n + 1) _ ih (packed_sendable _ (sendable_plain v hs) _), packed_plain, plain_plain]
    rfl

/-! ### Channels -/

theorem takeWhile_no (f rest : Text) (h : '.' ∉ f) : (f ++ '.' :: rest).takeWhile (· ≠ '.') = f ∧
    (f ++ '.' :: rest).dropWhile (· ≠ '.') = '.' :: rest := by
  induction f with
  | nil => simp
  | cons c f ih =>
    have hc : c ≠ '.' := fun e => h (by simp [e])
    have h1 := ih (fun hm => h (List.mem_cons_of_mem _ hm))
    simp only [List.cons_append, List.takeWhile_cons, List.dropWhile_cons, hc, ne_eq, not_false_eq_true, decide_true, if_true]
    exact ⟨by rw [h1.1], h1.2⟩

theorem rsplit_of (mri f : Text) (h : '.' ∉ f) : rsplit (mri ++ '.' :: f) = some (mri, f) := by
  have e : (mri ++ '.' :: f).reverse = f.reverse ++ '.' :: mri.reverse := by simp
  unfold rsplit
  rw [e, (takeWhile_no f.reverse mri.reverse (by simpa using h)).1, (takeWhile_no f.reverse mri.reverse (by simpa using h)).2]
  simp

theorem split_at (t : Text) : t.dropWhile (· ≠ '.') = [] ∨ ∃ r, t.dropWhile (· ≠ '.') = '.' :: r ∧ '.' ∉ t.takeWhile (· ≠ '.') := by
  induction t with
  | nil => exact .inl rfl
  | cons c t ih =>
    by_cases hc : c = '.'
    · refine .inr ⟨t, by simp [hc], by simp [hc]⟩
    · simp only [List.takeWhile_cons, List.dropWhile_cons, hc, ne_eq, not_false_eq_true, decide_true, if_true]
      cases ih with
      | inl h => exact .inl (by simpa using h)
      | inr h =>
        obtain ⟨r, h1, h2⟩ := h
        exact .inr ⟨r, by simpa using h1, by simpa [Ne.symm hc] using h2⟩

theorem rsplit_some (ch mri f : Text) (h : rsplit ch = some (mri, f)) : '.' ∉ f ∧ ch = mri ++ '.' :: f := by
  unfold rsplit at h
  cases split_at ch.reverse with
  | inl h1 => rw [h1] at h; cases h
  | inr h1 =>
    obtain ⟨r, h1, h2⟩ := h1
    have h3 := List.takeWhile_append_dropWhile (p := fun c : Char => decide (c ≠ '.')) (l := ch.reverse)
    rw [h1] at h h3
    simp only [Option.some.injEq, Prod.mk.injEq] at h
    obtain ⟨rfl, rfl⟩ := h
    refine ⟨by simpa using h2, ?_⟩
    have h4 := congrArg List.reverse h3
    simp only [List.reverse_append, List.reverse_cons, List.reverse_reverse] at h4
    refine Eq.trans h4.symm ?_
    simp only [List.append_assoc, List.singleton_append]

theorem chanOf_named (published : List Text) (ch mri : Text) (field : Option Text) (h : chanOf published ch = some (mri, field)) :
    Named ch mri field := by
  unfold chanOf at h
  split at h
  · cases h; exact .inl ⟨rfl, rfl⟩
  · cases hr : rsplit ch with
    | none => rw [hr] at h; cases h
    | some r =>
      rw [hr] at h
      cases h
      obtain ⟨h1, h2⟩ := rsplit_some ch r.1 r.2 (by rw [hr])
      exact .inr ⟨_, rfl, h1, h2⟩

/-- **C107**: there are channels for the published blocks and the fields of them, and no other. -/
theorem channels (published : List Text) (ch : Text) :
    testChannel published ch = true ↔ ∃ mri ∈ published, ∃ field, Named ch mri field := by
  unfold testChannel
  by_cases h : ch ∈ published
  · rw [if_pos h]
    exact iff_of_true rfl ⟨ch, h, none, .inl ⟨rfl, rfl⟩⟩
  · rw [if_neg h]
    cases hr : rsplit ch with
    | none =>
      refine ⟨fun hf => (by cases hf), ?_⟩
      rintro ⟨mri, hm, field, hn⟩
      cases hn with
      | inl hn => exact absurd (hn.2 ▸ hm) h
      | inr hn =>
        obtain ⟨f, _, h1, rfl⟩ := hn
        rw [rsplit_of mri f h1] at hr
        cases hr
    | some r =>
      obtain ⟨mri, f⟩ := r
      simp only [decide_eq_true_eq]
      constructor
      · intro hm
        obtain ⟨h1, h2⟩ := rsplit_some ch mri f hr
        exact ⟨mri, hm, some f, .inr ⟨f, rfl, h1, h2⟩⟩
      · intro hx
        obtain ⟨mri', hm, field, hn⟩ := hx
        cases hn with
        | inl hn => exact absurd (hn.2 ▸ hm) h
        | inr hn =>
          obtain ⟨f', _, h1, rfl⟩ := hn
          rw [rsplit_of mri' f' h1] at hr
          cases hr
          exact hm

theorem chanOf_published (published : List Text) (ch mri : Text) (field : Option Text) (ht : testChannel published ch = true)
    (h : chanOf published ch = some (mri, field)) : mri ∈ published := by
  unfold chanOf at h
  unfold testChannel at ht
  split at h
  · rename_i hp; cases h; exact hp
  · rename_i hp
    rw [if_neg hp] at ht
    cases hr : rsplit ch with
    | none => rw [hr] at h; cases h
    | some r =>
      rw [hr] at h ht
      cases h
      simpa using ht

/-- What holds of the server at all times -/
structure Inv (s : Srv) : Prop where
  keys : (Dict.keys s.pvs).Nodup
  inner : ∀ mri fs, Dict.get? s.pvs mri = some fs → (Dict.keys fs).Nodup
  old : ∀ mri f pv, Live s mri f pv → pv < s.next ∧ pv ∉ s.closed
  apart : ∀ mri f mri' f' pv, Live s mri f pv → Live s mri' f' pv → mri = mri' ∧ f = f'
  closed : ∀ pv ∈ s.closed, pv < s.next
  pub : s.up = true → ∀ mri f pv, Live s mri f pv → mri ∈ s.published
  down : s.up = false → s.pvs = []

theorem inv_init : Inv Srv.init := by
  constructor <;> simp [Srv.init, Live, Dict.keys, Dict.get?]

theorem live_erase (s : Srv) (hk : (Dict.keys s.pvs).Nodup) (mri mri' : Text) (f : Option Text) (pv : Nat) :
    Live (disconnect1 s mri) mri' f pv ↔ mri' ≠ mri ∧ Live s mri' f pv := by
  unfold Live disconnect1
  dsimp only
  rw [Dict.get?_erase hk]
  by_cases h : mri = mri'
  · subst h; simp
  · simp [h, Ne.symm h]

theorem closed_disconnect1 (s : Srv) (hin : ∀ mri fs, Dict.get? s.pvs mri = some fs → (Dict.keys fs).Nodup) (mri : Text) (pv : Nat) :
    pv ∈ (disconnect1 s mri).closed ↔ pv ∈ s.closed ∨ ∃ f, Live s mri f pv := by
  unfold disconnect1 Live
  dsimp only
  rw [List.mem_append]
  constructor
  · intro h
    cases h with
    | inl h => exact .inl h
    | inr h =>
      rw [List.mem_map] at h
      obtain ⟨⟨f, x⟩, h1, rfl⟩ := h
      cases hg : Dict.get? s.pvs mri with
      | none => rw [hg] at h1; simp at h1
      | some fs =>
        rw [hg] at h1
        exact .inr ⟨f, fs, rfl, Dict.get?_of_mem_nodup (hin mri fs hg) h1⟩
  · rintro (h | ⟨f, fs, h1, h2⟩)
    · exact .inl h
    · refine .inr (List.mem_map.2 ⟨(f, pv), ?_, rfl⟩)
      rw [h1]
      exact Dict.get?_mem h2

/-- What disconnecting leaves -/
theorem disconnect_spec (mris : List Text) : ∀ s : Srv, (Dict.keys s.pvs).Nodup →
    (∀ mri fs, Dict.get? s.pvs mri = some fs → (Dict.keys fs).Nodup) →
    (Dict.keys (disconnectAll s mris).pvs).Nodup ∧
    (∀ mri fs, Dict.get? (disconnectAll s mris).pvs mri = some fs → mri ∉ mris ∧ Dict.get? s.pvs mri = some fs) ∧
    (∀ mri f pv, Live (disconnectAll s mris) mri f pv ↔ mri ∉ mris ∧ Live s mri f pv) ∧
    (∀ pv, pv ∈ (disconnectAll s mris).closed ↔ pv ∈ s.closed ∨ ∃ mri ∈ mris, ∃ f, Live s mri f pv) ∧
    (disconnectAll s mris).next = s.next ∧ (disconnectAll s mris).published = s.published ∧ (disconnectAll s mris).up = s.up := by
  induction mris with
  | nil => intro s hk hin; simp [disconnectAll, hk]
  | cons m mris ih =>
    intro s hk hin
    have hk1 : (Dict.keys (disconnect1 s m).pvs).Nodup := Dict.nodup_erase hk m
    have hg : ∀ mri fs, Dict.get? (disconnect1 s m).pvs mri = some fs → mri ≠ m ∧ Dict.get? s.pvs mri = some fs := by
      intro mri fs h
      unfold disconnect1 at h
      dsimp only at h
      rw [Dict.get?_erase hk] at h
      by_cases e : m = mri
      · rw [if_pos e] at h; cases h
      · rw [if_neg e] at h; exact ⟨Ne.symm e, h⟩
    obtain ⟨a, b, c, d, e, f, g⟩ := ih (disconnect1 s m) hk1 (fun mri fs h => hin mri fs (hg mri fs h).2)
    show (Dict.keys (disconnectAll (disconnect1 s m) mris).pvs).Nodup ∧ _
    refine ⟨a, ?_, ?_, ?_, e, f, g⟩
    · intro mri fs h
      obtain ⟨h1, h2⟩ := b mri fs h
      obtain ⟨h3, h4⟩ := hg mri fs h2
      exact ⟨by simp [h1, h3], h4⟩
    · intro mri f pv
      refine (c mri f pv).trans ?_
      rw [live_erase s hk, List.mem_cons, not_or]
      exact ⟨fun ⟨x, y, z⟩ => ⟨⟨y, x⟩, z⟩, fun ⟨⟨y, x⟩, z⟩ => ⟨x, y, z⟩⟩
    · intro pv
      refine (d pv).trans ?_
      rw [closed_disconnect1 s hin]
      constructor
      · rintro ((h | ⟨f, h⟩) | ⟨mri, h1, f, h2⟩)
        · exact .inl h
        · exact .inr ⟨m, by simp, _, h⟩
        · exact .inr ⟨mri, by simp [h1], _, ((live_erase s hk _ _ _ _).1 h2).2⟩
      · rintro (h | ⟨mri, h1, f, h2⟩)
        · exact .inl (.inl h)
        · by_cases e : mri = m
          · subst e; exact .inl (.inr ⟨_, h2⟩)
          · rw [List.mem_cons] at h1
            exact .inr ⟨mri, h1.resolve_left e, f, (live_erase s hk _ _ _ _).2 ⟨e, h2⟩⟩

theorem inv_disconnect (s : Srv) (mris : List Text) (h : Inv s) : Inv (disconnectAll s mris) := by
  obtain ⟨a, b, c, d, e, f, g⟩ := disconnect_spec mris s h.keys h.inner
  refine ⟨a, fun mri fs hg => h.inner mri fs (b mri fs hg).2, ?_, ?_, ?_, ?_, ?_⟩
  · intro mri fd pv hl
    have hl1 := (c mri fd pv).1 hl
    refine ⟨by rw [e]; exact (h.old mri fd pv hl1.2).1, ?_⟩
    intro hc
    cases (d pv).1 hc with
    | inl hc => exact (h.old mri fd pv hl1.2).2 hc
    | inr hc =>
      obtain ⟨m', hm', f', hl'⟩ := hc
      exact hl1.1 ((h.apart _ _ _ _ _ hl1.2 hl').1 ▸ hm')
  · intro mri fd mri' fd' pv h1 h2
    exact h.apart _ _ _ _ pv ((c _ _ _).1 h1).2 ((c _ _ _).1 h2).2
  · intro pv hc
    rw [e]
    cases (d pv).1 hc with
    | inl hc => exact h.closed pv hc
    | inr hc =>
      obtain ⟨m', _, f', hl'⟩ := hc
      exact (h.old _ _ _ hl').1
  · intro hu mri fd pv hl
    rw [f]
    exact h.pub (by rw [← g]; exact hu) mri fd pv ((c _ _ _).1 hl).2
  · intro hu
    have h0 := h.down (by rw [← g]; exact hu)
    cases hp : (disconnectAll s mris).pvs with
    | nil => rfl
    | cons x xs =>
      obtain ⟨k, fs⟩ := x
      have := (b k fs (by rw [hp]; simp [Dict.get?])).2
      rw [h0] at this
      simp [Dict.get?] at this

theorem live_pvFor (s : Srv) (mri : Text) (field : Option Text) :
    Live (pvFor s mri field).1 mri field (pvFor s mri field).2 ∧
    ((pvFor s mri field).1 = s ∨ ((pvFor s mri field).2 = s.next ∧ (∀ pv, ¬ Live s mri field pv) ∧
      (pvFor s mri field).1.next = s.next + 1 ∧ (pvFor s mri field).1.closed = s.closed ∧
      (pvFor s mri field).1.published = s.published ∧ (pvFor s mri field).1.up = s.up ∧
      (pvFor s mri field).1.pvs = Dict.set s.pvs mri (Dict.set ((Dict.get? s.pvs mri).getD []) field s.next) ∧
      ∀ mri' f' pv, Live (pvFor s mri field).1 mri' f' pv ↔ (Live s mri' f' pv ∨ (mri' = mri ∧ f' = field ∧ pv = s.next)))) := by
  unfold pvFor
  dsimp only
  cases hg : Dict.get? ((Dict.get? s.pvs mri).getD []) field with
  | some pv =>
    dsimp only
    refine ⟨?_, .inl rfl⟩
    cases hm : Dict.get? s.pvs mri with
    | none => rw [hm] at hg; simp [Dict.get?] at hg
    | some fs => rw [hm] at hg; exact ⟨fs, hm, hg⟩
  | none =>
    dsimp only
    have hno : ∀ pv, ¬ Live s mri field pv := by
      rintro pv ⟨fs, h1, h2⟩
      rw [h1] at hg
      rw [Option.getD_some, h2] at hg
      cases hg
    refine ⟨⟨_, by rw [Dict.get?_set, if_pos rfl], by rw [Dict.get?_set, if_pos rfl]⟩, .inr ⟨rfl, hno, rfl, rfl, rfl, rfl, rfl, ?_⟩⟩
    intro mri' f' pv
    unfold Live
    dsimp only
    rw [Dict.get?_set]
    by_cases h1 : mri = mri'
    · subst h1
      rw [if_pos rfl]
      constructor
      · rintro ⟨fs, h2, h3⟩
        cases h2
        rw [Dict.get?_set] at h3
        by_cases h4 : field = f'
        · rw [if_pos h4] at h3; cases h3; exact .inr ⟨rfl, h4.symm, rfl⟩
        · rw [if_neg h4] at h3
          cases hm : Dict.get? s.pvs mri with
          | none => rw [hm] at h3; simp [Dict.get?] at h3
          | some fs => rw [hm] at h3; exact .inl ⟨fs, rfl, h3⟩
      · rintro (⟨fs, h2, h3⟩ | ⟨_, rfl, rfl⟩)
        · refine ⟨_, rfl, ?_⟩
          rw [Dict.get?_set, h2, Option.getD_some]
          by_cases h4 : field = f'
          · subst h4; exact absurd ⟨fs, h2, h3⟩ (hno pv)
          · rw [if_neg h4]; exact h3
        · exact ⟨_, rfl, by rw [Dict.get?_set, if_pos rfl]⟩
    · rw [if_neg h1]
      constructor
      · intro h; exact .inl h
      · rintro (h | ⟨h2, _⟩)
        · exact h
        · exact absurd h2.symm h1

theorem inv_pvFor (s : Srv) (h : Inv s) (mri : Text) (field : Option Text) (hu : s.up = true) (hp : mri ∈ s.published) :
    Inv (pvFor s mri field).1 := by
  cases (live_pvFor s mri field).2 with
  | inl h1 => rw [h1]; exact h
  | inr h1 =>
    obtain ⟨_, hno, hn, hc, hpub, hup, hpvs, hl⟩ := h1
    refine ⟨?_, ?_, ?_, ?_, ?_, ?_, ?_⟩
    · rw [hpvs]; exact Dict.nodup_set h.keys _ _
    · intro m fs hg
      rw [hpvs, Dict.get?_set] at hg
      by_cases e : mri = m
      · rw [if_pos e] at hg
        cases hg
        apply Dict.nodup_set
        cases hm : Dict.get? s.pvs mri with
        | none => simp [Dict.keys]
        | some fs => exact h.inner _ _ hm
      · rw [if_neg e] at hg; exact h.inner _ _ hg
    · intro m f pv hlv
      rw [hn, hc]
      cases (hl m f pv).1 hlv with
      | inl h2 => exact ⟨Nat.lt_succ_of_lt (h.old m f pv h2).1, (h.old m f pv h2).2⟩
      | inr h2 =>
        obtain ⟨_, _, rfl⟩ := h2
        exact ⟨Nat.lt_succ_self _, fun hc => absurd (h.closed _ hc) (Nat.lt_irrefl _)⟩
    · intro m f m' f' pv h2 h3
      cases (hl m f pv).1 h2 with
      | inl h2 =>
        cases (hl m' f' pv).1 h3 with
        | inl h3 => exact h.apart _ _ _ _ _ h2 h3
        | inr h3 =>
          obtain ⟨_, _, rfl⟩ := h3
          exact absurd (h.old m f _ h2).1 (Nat.lt_irrefl _)
      | inr h2 =>
        obtain ⟨rfl, rfl, rfl⟩ := h2
        cases (hl m' f' s.next).1 h3 with
        | inl h3 => exact absurd (h.old m' f' _ h3).1 (Nat.lt_irrefl _)
        | inr h3 => exact ⟨h3.1.symm, h3.2.1.symm⟩
    · intro pv hcl
      rw [hc] at hcl
      rw [hn]
      exact Nat.lt_succ_of_lt (h.closed pv hcl)
    · intro _ m f pv hlv
      rw [hpub]
      cases (hl m f pv).1 hlv with
      | inl h2 => exact h.pub hu m f pv h2
      | inr h2 => rw [h2.1]; exact hp
    · intro hd; rw [hup, hu] at hd; cases hd

theorem no_live_of_down (s : Srv) (h : Inv s) : (disconnectAll s (Dict.keys s.pvs)).pvs = [] := by
  obtain ⟨_, b, _⟩ := disconnect_spec (Dict.keys s.pvs) s h.keys h.inner
  cases hp : (disconnectAll s (Dict.keys s.pvs)).pvs with
  | nil => rfl
  | cons x xs =>
    obtain ⟨k, fs⟩ := x
    obtain ⟨h1, h2⟩ := b k fs (by rw [hp]; simp [Dict.get?])
    exact absurd (by rw [← Dict.mem_iff, Dict.mem, h2]; rfl) h1

theorem inv_step (s : Srv) (e : Event) (h : Inv s) : Inv (serve s e).1 := by
  cases e with
  | ask ch =>
    unfold serve
    dsimp only
    split
    · rename_i hc
      split
      · rename_i mri field hch
        exact inv_pvFor s h mri field hc.1 (chanOf_published _ _ _ _ hc.2 hch)
      · exact h
    · exact h
  | publish l =>
    unfold serve
    dsimp only
    split
    · rename_i hu
      obtain ⟨a, b, c, d, e, f, g⟩ := disconnect_spec ((Dict.keys s.pvs).filter (· ∉ l)) { s with published := l } h.keys h.inner
      have h' : Inv { s with up := true, published := Dict.keys s.pvs } := by
        refine ⟨h.keys, h.inner, h.old, h.apart, h.closed, ?_, fun hd => by cases hd⟩
        rintro _ m f pv ⟨fs, h1, _⟩
        show m ∈ Dict.keys s.pvs
        rw [← Dict.mem_iff, Dict.mem, h1]; rfl
      have hs := inv_disconnect _ ((Dict.keys s.pvs).filter (· ∉ l)) h'
      obtain ⟨a', b', c', d', e', f', g'⟩ := disconnect_spec ((Dict.keys s.pvs).filter (· ∉ l)) { s with up := true, published := Dict.keys s.pvs } h.keys h.inner
      refine ⟨a, fun m fs hg => h.inner m fs (b m fs hg).2, ?_, ?_, ?_, ?_, ?_⟩
      · intro m f pv hl
        have h2 := hs.old m f pv ((c' m f pv).2 ((c m f pv).1 hl))
        rw [e'] at h2
        rw [e]
        exact ⟨h2.1, fun hc => h2.2 ((d' pv).2 ((d pv).1 hc))⟩
      · intro m f m' f' pv h1 h2
        exact h.apart _ _ _ _ pv ((c _ _ _).1 h1).2 ((c _ _ _).1 h2).2
      · intro pv hc
        have := hs.closed pv ((d' pv).2 ((d pv).1 hc))
        rw [e'] at this
        rw [e]
        exact this
      · intro _ m fd pv hl
        rw [f]
        obtain ⟨h1, fs, h2, _⟩ := (c m fd pv).1 hl
        have hk : m ∈ Dict.keys s.pvs := by rw [← Dict.mem_iff, Dict.mem, h2]; rfl
        by_cases hm : m ∈ l
        · exact hm
        · exact absurd (List.mem_filter.2 ⟨hk, by simpa using hm⟩) h1
      · intro hd; rw [g] at hd; exact absurd hd (by simp [hu])
    · rename_i hu
      have hd := h.down (by simpa using hu)
      exact ⟨h.keys, h.inner, h.old, h.apart, h.closed, fun hu' => absurd hu' hu, fun _ => hd⟩
  | up =>
    refine ⟨h.keys, h.inner, h.old, h.apart, h.closed, ?_, fun hd => by cases hd⟩
    intro _ m f pv hl
    cases hu : s.up with
    | true => exact h.pub hu m f pv hl
    | false =>
      obtain ⟨fs, h1, _⟩ := hl
      have : Dict.get? s.pvs m = some fs := h1
      rw [h.down hu] at this
      simp [Dict.get?] at this
  | down =>
    unfold serve
    dsimp only
    split
    · have hp := no_live_of_down s h
      have hi := inv_disconnect s (Dict.keys s.pvs) h
      exact ⟨hi.keys, hi.inner, hi.old, hi.apart, hi.closed, fun hu => (by cases hu), fun _ => hp⟩
    · exact h

theorem inv_runs (es : List Event) : ∀ s, Inv s → Inv (runs s es) := by
  induction es with
  | nil => intro s h; exact h
  | cons e es ih => intro s h; exact ih _ (inv_step s e h)

/-- A PV stays until it is closed. -/
theorem stays_step (s : Srv) (h : Inv s) (e : Event) (mri : Text) (f : Option Text) (pv : Nat) (hl : Live s mri f pv) :
    Live (serve s e).1 mri f pv ∨ pv ∈ (serve s e).1.closed := by
  cases e with
  | ask ch =>
    unfold serve
    dsimp only
    split
    · split
      · rename_i m field hch
        cases (live_pvFor s m field).2 with
        | inl h1 => rw [h1]; exact .inl hl
        | inr h1 => exact .inl ((h1.2.2.2.2.2.2.2 mri f pv).2 (.inl hl))
      · exact .inl hl
    · exact .inl hl
  | publish l =>
    unfold serve
    dsimp only
    split
    · obtain ⟨a, b, c, d, e, _⟩ := disconnect_spec ((Dict.keys s.pvs).filter (· ∉ l)) { s with published := l } h.keys h.inner
      by_cases hm : mri ∈ (Dict.keys s.pvs).filter (· ∉ l)
      · exact .inr ((d pv).2 (.inr ⟨mri, hm, f, hl⟩))
      · exact .inl ((c mri f pv).2 ⟨hm, hl⟩)
    · exact .inl hl
  | up => exact .inl hl
  | down =>
    unfold serve
    dsimp only
    split
    · obtain ⟨a, b, c, d, e, _⟩ := disconnect_spec (Dict.keys s.pvs) s h.keys h.inner
      by_cases hm : mri ∈ Dict.keys s.pvs
      · exact .inr ((d pv).2 (.inr ⟨mri, hm, f, hl⟩))
      · exact .inl ((c mri f pv).2 ⟨hm, hl⟩)
    · exact .inl hl

theorem closed_step (s : Srv) (h : Inv s) (e : Event) (pv : Nat) (hc : pv ∈ s.closed) : pv ∈ (serve s e).1.closed := by
  cases e with
  | ask ch =>
    unfold serve
    dsimp only
    split
    · split
      · rename_i m field hch
        cases (live_pvFor s m field).2 with
        | inl h1 => rw [h1]; exact hc
        | inr h1 => rw [h1.2.2.2.1]; exact hc
      · exact hc
    · exact hc
  | publish l =>
    unfold serve
    dsimp only
    split
    · obtain ⟨a, b, c, d, e, _⟩ := disconnect_spec ((Dict.keys s.pvs).filter (· ∉ l)) { s with published := l } h.keys h.inner
      exact (d pv).2 (.inl hc)
    · exact hc
  | up => exact hc
  | down =>
    unfold serve
    dsimp only
    split
    · obtain ⟨a, b, c, d, e, _⟩ := disconnect_spec (Dict.keys s.pvs) s h.keys h.inner
      exact (d pv).2 (.inl hc)
    · exact hc

theorem stays (es : List Event) : ∀ s, Inv s → ∀ mri f pv, (Live s mri f pv ∨ pv ∈ s.closed) →
    (Live (runs s es) mri f pv ∨ pv ∈ (runs s es).closed) := by
  induction es with
  | nil => intro s _ mri f pv h; exact h
  | cons e es ih =>
    intro s hi mri f pv h
    refine ih _ (inv_step s e hi) mri f pv ?_
    cases h with
    | inl h => exact stays_step s hi e mri f pv h
    | inr h => exact .inr (closed_step s hi e pv h)

theorem closed_ask (s : Srv) (ch : Text) : (serve s (.ask ch)).1.closed = s.closed := by
  unfold serve
  dsimp only
  split
  · split
    · rename_i m f _
      cases (live_pvFor s m f).2 with
      | inl h1 => rw [h1]
      | inr h1 => rw [h1.2.2.2.1]
    · rfl
  · rfl

/-- Who asks gets the PV there is for the block and field -/
theorem ask_live (s : Srv) (ch : Text) (pv : Nat) (h : (serve s (.ask ch)).2 = some pv) :
    ∃ mri field, chanOf s.published ch = some (mri, field) ∧ mri ∈ s.published ∧ Named ch mri field ∧
      Live (serve s (.ask ch)).1 mri field pv ∧ s.up = true := by
  unfold serve at h ⊢
  dsimp only at h ⊢
  split at h
  · rename_i hc
    rw [if_pos hc]
    split at h
    · rename_i mri field hch
      cases h
      rw [hch]
      exact ⟨mri, field, rfl, chanOf_published _ _ _ _ hc.2 hch, chanOf_named _ _ _ _ hch, (live_pvFor s mri field).1, hc.1⟩
    · cases h
  · cases h

/-- **C107**: who asks for the channel of a published block, or of a field of it, while the server is up, is given a PV; who asks
for anything else is not. -/
theorem given_iff (es : List Event) (ch : Text) :
    (∃ pv, (serve (runs .init es) (.ask ch)).2 = some pv) ↔
      (runs .init es).up = true ∧ ∃ mri ∈ (runs .init es).published, ∃ field, Named ch mri field := by
  rw [← channels]
  constructor
  · rintro ⟨pv, h⟩
    unfold serve at h
    dsimp only at h
    split at h
    · rename_i hc; exact hc
    · cases h
  · intro hc
    unfold serve
    dsimp only
    rw [if_pos hc]
    cases hch : chanOf (runs .init es).published ch with
    | some r => exact ⟨_, rfl⟩
    | none =>
      exfalso
      unfold chanOf at hch
      have ht := hc.2
      unfold testChannel at ht
      split at hch
      · cases hch
      · rename_i hp
        rw [if_neg hp] at ht
        cases hr : rsplit ch with
        | none => rw [hr] at ht; cases ht
        | some r => rw [hr] at hch; cases hch

/-- **C107**: at any later time a PV that a client was given is closed, or it is still that of the block and field, and the block
is published. So a client of a block that is no longer published, or of a server that was stopped, is told. -/
theorem closed_or_served (es es' : List Event) (ch : Text) (pv : Nat) (h : (serve (runs .init es) (.ask ch)).2 = some pv) :
    pv ∈ (runs (serve (runs .init es) (.ask ch)).1 es').closed ∨
    ((runs (serve (runs .init es) (.ask ch)).1 es').up = true ∧
      ∃ mri ∈ (runs (serve (runs .init es) (.ask ch)).1 es').published, ∃ field, Named ch mri field ∧
        Live (runs (serve (runs .init es) (.ask ch)).1 es') mri field pv) := by
  obtain ⟨mri, field, _, _, h3, h4, _⟩ := ask_live _ ch pv h
  have hi := inv_step _ (.ask ch) (inv_runs es _ inv_init)
  have hi2 := inv_runs es' _ hi
  cases stays es' _ hi mri field pv (.inl h4) with
  | inr hc => exact .inl hc
  | inl hl =>
    refine .inr ?_
    cases hu : (runs (serve (runs .init es) (.ask ch)).1 es').up with
    | true => exact ⟨rfl, mri, hi2.pub hu mri field pv hl, field, h3, hl⟩
    | false =>
      obtain ⟨fs, h1, _⟩ := hl
      rw [hi2.down hu] at h1
      simp [Dict.get?] at h1

/-- **C107**: two clients are given the same PV if and only if they ask for the same block and field, as long as it is not closed. -/
theorem same_pv (es es' : List Event) (ch ch' : Text) (pv pv' : Nat) (h : (serve (runs .init es) (.ask ch)).2 = some pv)
    (h' : (serve (runs (serve (runs .init es) (.ask ch)).1 es') (.ask ch')).2 = some pv')
    (hopen : pv ∉ (runs (serve (runs .init es) (.ask ch)).1 es').closed) :
    pv' = pv ↔ chanOf (runs (serve (runs .init es) (.ask ch)).1 es').published ch' = chanOf (runs .init es).published ch := by
  obtain ⟨mri, field, h1, _, _, h4, _⟩ := ask_live _ ch pv h
  have hi := inv_step _ (.ask ch) (inv_runs es _ inv_init)
  have hi2 := inv_runs es' _ hi
  have hl := (stays es' _ hi mri field pv (.inl h4)).resolve_right hopen
  obtain ⟨mri', field', h1', _, _, h4', _⟩ := ask_live _ ch' pv' h'
  have hi3 := inv_step _ (.ask ch') hi2
  have hl' : Live (serve (runs (serve (runs .init es) (.ask ch)).1 es') (.ask ch')).1 mri field pv := by
    cases stays_step _ hi2 (.ask ch') mri field pv hl with
    | inl h => exact h
    | inr hc =>
      exfalso
      rw [closed_ask] at hc
      exact hopen hc
  rw [h1', h1]
  constructor
  · rintro rfl
    obtain ⟨rfl, rfl⟩ := hi3.apart _ _ _ _ _ h4' hl'
    rfl
  · intro e
    cases e
    obtain ⟨fs, a, b⟩ := h4'
    obtain ⟨fs2, a2, b2⟩ := hl'
    rw [a] at a2
    cases a2
    rw [b] at b2
    cases b2
    rfl

/-! ### Cases -/

/-- Takes a name, as a string -/
def takesName : Py → Option Py
  | .dict _ [("name", .str s)] => some (.dict none [("name", .str s)])
  | _ => none

/-- demo/parts/hellopart.py: `greet` -/
def greet : Meth where
  unpacked := true
  writeable := true
  validate := takesName
  run := fun p => ([("greet".toList, p)], .ok (.str "Hello me"))

/-- A method that gives a map of what it took -/
def echo : Meth where
  unpacked := false
  writeable := true
  validate := takesName
  run := fun p => ([("echo".toList, p)], .ok (.dict (some "echo:1.0") [("took", p), ("mode", .enum "Fast")]))

/-- A method that raises -/
def fail : Meth where
  unpacked := false
  writeable := true
  validate := takesName
  run := fun p => ([("fail".toList, p)], .error "RuntimeError: You called method error()")

/-- A method that gives a list of numbers -/
def list : Meth where
  unpacked := true
  writeable := true
  validate := takesName
  run := fun p => ([("list".toList, p)], .ok (.objs [.num "l" 1, .num "l" 2]))

/-- A block with these -/
def hello : Blk where
  mri := "HELLO".toList
  fields := [("health".toList, .attr), ("greet".toList, .method greet), ("echo".toList, .method echo), ("fail".toList, .method fail),
    ("list".toList, .method list)]

/-- What is given to them -/
def me : Py := .dict none [("name", .str "me")]

theorem takes_lawful (m : Meth) (h : m.validate = takesName) : Lawful m := by
  intro p q hq
  rw [h] at hq ⊢
  unfold takesName at hq
  split at hq
  · cases hq
    exact ⟨⟨_, rfl⟩, by simp [sendable, sendableFields], rfl⟩
  · cases hq

example : Lawful greet ∧ Lawful echo ∧ takesName me = some me ∧ sendable me ∧
    Dict.get? hello.fields "echo".toList = some (.method echo) ∧
    sendPost hello "echo".toList me =
      ([("echo".toList, me)], .ok (.dict (some "echo:1.0") [("took", me), ("mode", .str "Fast")])) ∧
    sendPost hello "fail".toList me = ([("fail".toList, me)], .error "RuntimeError: You called method error()") ∧
    (sendPost hello "health".toList me).1 = [] ∧
    (sendPost hello "greet".toList (.dict none [("name", .num "l" 3)])).1 = [] ∧
    (sendPost hello "greet".toList (.dict none [("name", .none)])).1 = [] :=
  ⟨takes_lawful _ rfl, takes_lawful _ rfl, rfl, by simp [me, sendable, sendableFields], rfl, rfl, rfl, rfl, rfl, rfl⟩

/-- The same call gives the value where the block is, but a map where it is a copy, and a map of a map at the next copy. -/
theorem greeting_packed :
    handlePost hello "greet".toList me = ([("greet".toList, me)], .ok (.str "Hello me")) ∧
    handlePost (copies hello 1) "greet".toList me =
      ([("greet".toList, me)], .ok (.dict none [("return", .str "Hello me")])) ∧
    handlePost (copies hello 2) "greet".toList me =
      ([("greet".toList, me)], .ok (.dict none [("return", .dict none [("return", .str "Hello me")])])) :=
  ⟨rfl, rfl, rfl⟩

/-- A call that went well where the block is gives an error where it is a copy, as a list of numbers cannot be sent. -/
theorem list_lost :
    handlePost hello "list".toList me = ([("list".toList, me)], .ok (.objs [.num "l" 1, .num "l" 2])) ∧
    handlePost (copies hello 1) "list".toList me = ([("list".toList, me)], .error "TypeError") :=
  ⟨rfl, rfl⟩

/-- A call sent to the channel of one method calls another, if its URI says so. -/
theorem other_method : (rpc hello (some "fail".toList)
    ⟨.uri "pva".toList "HELLO.echo".toList (.struct "structure" [("name", .str "me")]), none⟩).1 = [("echo".toList, me)] := rfl

example : ∃ s : Srv, s = runs .init [.up, .publish ["A".toList, "B".toList], .ask "A".toList, .ask "A.x".toList, .ask "C.x".toList,
      .ask "A".toList, .publish ["B".toList]] ∧ s.closed = [0, 1] ∧ s.next = 2 ∧ s.pvs = [] ∧
    (serve s (.ask "B.x.y".toList)).2 = none ∧ (serve s (.ask "B.x".toList)).2 = some 2 :=
  ⟨_, rfl, by decide +kernel, by decide +kernel, by decide +kernel, by decide +kernel, by decide +kernel⟩

/-- A step changes whether the server is up as it says -/
theorem up_step (s : Srv) (e : Event) : (serve s e).1.up = match e with
    | .up => true
    | .down => false
    | _ => s.up := by
  have hd : ∀ (ms : List Text) (s : Srv), (disconnectAll s ms).up = s.up := by
    intro ms
    induction ms with
    | nil => intro s; rfl
    | cons m ms ih => intro s; exact ih (disconnect1 s m)
  have hp : ∀ (s : Srv) mri f, (pvFor s mri f).1.up = s.up := by
    intro s mri f; unfold pvFor; dsimp only; split <;> rfl
  cases e with
  | ask ch =>
    unfold serve
    dsimp only
    split
    · split
      · exact hp ..
      · rfl
    · rfl
  | publish l =>
    unfold serve
    dsimp only
    split
    · exact hd _ _
    · rfl
  | up => rfl
  | down =>
    unfold serve
    dsimp only
    split
    · rfl
    · rename_i h; simpa using h

/-- **C107**: the server is up just if it was brought up and not down since -/
theorem up_iff (es : List Event) : (runs .init es).up = true ↔ ∃ a b, es = a ++ .up :: b ∧ .down ∉ b := by
  have go : ∀ (es : List Event) (s : Srv), (runs s es).up = true ↔
      (∃ a b, es = a ++ .up :: b ∧ .down ∉ b) ∨ (s.up = true ∧ .down ∉ es) := by
    intro es
    induction es with
    | nil => intro s; simp [runs]
    | cons e es ih =>
      intro s
      rw [runs, ih, up_step]
      constructor
      · rintro (⟨a, b, rfl, h⟩ | ⟨h1, h2⟩)
        · exact Or.inl ⟨e :: a, b, rfl, h⟩
        · cases e with
          | up => exact Or.inl ⟨[], es, rfl, h2⟩
          | down => cases h1
          | ask ch => exact Or.inr ⟨h1, by simpa using h2⟩
          | publish l => exact Or.inr ⟨h1, by simpa using h2⟩
      · rintro (⟨a, b, h, hb⟩ | ⟨h1, h2⟩)
        · cases a with
          | nil =>
            simp only [List.nil_append, List.cons.injEq] at h
            obtain ⟨rfl, rfl⟩ := h
            exact Or.inr ⟨rfl, hb⟩
          | cons x a =>
            simp only [List.cons_append, List.cons.injEq] at h
            obtain ⟨rfl, rfl⟩ := h
            exact Or.inl ⟨a, b, rfl, hb⟩
        · simp only [List.mem_cons, not_or] at h2
          cases e with
          | up => exact Or.inr ⟨rfl, h2.2⟩
          | down => exact absurd rfl h2.1
          | ask ch => exact Or.inr ⟨h1, h2.2⟩
          | publish l => exact Or.inr ⟨h1, h2.2⟩
  rw [go]
  constructor
  · rintro (h | ⟨h, _⟩)
    · exact h
    · cases h
  · exact Or.inl

end Verif.Props.PvaCall
