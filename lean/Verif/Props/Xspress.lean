import Verif.Spec.Xspress
import Verif.Props.Odin
import Verif.Proofs.PyDict
/-!
C94: the file of an Xspress detector.
-/
namespace Verif.Props.Xspress
open Verif Verif.Xspress Verif.Spec.Xspress

theorem size_points (dims : List Dim) : size dims = points dims := by
  induction dims with
  | nil => rfl
  | cons d ds ih => show d.size * size ds = d.size * points ds; rw [ih]

theorem put_ok (vds : Dict Path Node) (p : Path) (n : Node) (h : Dict.get? vds p = none) :
    put vds p n = .ok (Dict.set vds p n) := by
  unfold put
  rw [if_neg]
  simp [Dict.mem, h]

theorem link_ok (path : Nat → Path) (hinj : ∀ i j, path i = path j → i = j) (node : Nat → Option Node) :
    ∀ n i (vds : Dict Path Node), (∀ j, i ≤ j → Dict.get? vds (path j) = none) →
      (∀ j, i ≤ j → j < i + n → ∃ x, node j = some x) →
      ∃ vds', linkLoop path node n i vds = .ok vds' ∧
        (∀ j, i ≤ j → j < i + n → Dict.get? vds' (path j) = node j) ∧
        ∀ q, (∀ j, i ≤ j → j < i + n → q ≠ path j) → Dict.get? vds' q = Dict.get? vds q := by
  intro n
  induction n with
  | zero => intro i vds _ _; exact ⟨vds, rfl, fun j h1 h2 => by omega, fun _ _ => rfl⟩
  | succ n ih =>
    intro i vds hfree hnode
    obtain ⟨x, hx⟩ := hnode i (Nat.le_refl i) (by omega)
    have hset : ∀ j, j ≠ i → Dict.get? (Dict.set vds (path i) x) (path j) = Dict.get? vds (path j) :=
      fun j hj => Dict.get?_set_ne _ _ (fun h => hj (hinj _ _ h).symm)
    obtain ⟨vds', h1, h2, h3⟩ := ih (i + 1) (Dict.set vds (path i) x)
      (fun j hj => by rw [hset j (by omega)]; exact hfree j (by omega))
      (fun j h1 h2 => hnode j (by omega) (by omega))
    refine ⟨vds', ?_, ?_, ?_⟩
    · rw [linkLoop, hx]
      simp only [put_ok vds (path i) x (hfree i (Nat.le_refl i))]
      exact h1
    · intro j hj1 hj2
      by_cases hji : j = i
      · subst hji
        rw [h3 _ (fun k hk1 _ he => by have := hinj _ _ he; omega), Dict.get?_set_self, hx]
      · exact h2 j (by omega) (by omega)
    · intro q hq
      rw [h3 q (fun j hj1 hj2 => hq j (by omega) (by omega)),
        Dict.get?_set_ne _ _ (Ne.symm (hq i (Nat.le_refl i) (by omega)))]

theorem link_err (path : Nat → Path) (hinj : ∀ i j, path i = path j → i = j) (node : Nat → Option Node) :
    ∀ n i (vds : Dict Path Node), (∀ j, i ≤ j → Dict.get? vds (path j) = none) →
      (∃ j, i ≤ j ∧ j < i + n ∧ node j = none) → linkLoop path node n i vds = .error .indexError := by
  intro n
  induction n with
  | zero => intro i vds _ ⟨j, h1, h2, _⟩; omega
  | succ n ih =>
    intro i vds hfree ⟨j, h1, h2, h3⟩
    rw [linkLoop]
    cases hx : node i with
    | none => rfl
    | some x =>
      simp only [put_ok vds (path i) x (hfree i (Nat.le_refl i))]
      refine ih (i + 1) _ (fun k hk => ?_) ⟨j, ?_, by omega, h3⟩
      · rw [Dict.get?_set_ne _ _ (fun h => by have := hinj _ _ h; omega)]
        exact hfree k (by omega)
      · rcases Nat.lt_or_ge i j with h | h
        · exact h
        · have : i = j := Nat.le_antisymm h1 h
          subst this
          rw [hx] at h3; exact nomatch h3

/-- the number of the file channel `chan` leads to -/
def fileOf (perFile chan : Nat) : Nat := if perFile = 0 then chan + 1 else chan / perFile

theorem mcaLoop_eq (perFile : Nat) (fs : List String) : ∀ n chan counter (vds : Dict Path Node),
    (counter = if chan = 0 then 0 else fileOf perFile (chan - 1)) →
    mcaLoop perFile fs n chan counter vds =
      linkLoop .mca (fun c => (fs[fileOf perFile c]?).map (fun f => .mca f c)) n chan vds := by
  intro n
  induction n with
  | zero => intro _ _ _ _; rfl
  | succ n ih =>
    intro chan counter vds hc
    have hnew : (if chan ≥ perFile * (counter + 1) then counter + 1 else counter) = fileOf perFile chan := by
      unfold fileOf at hc ⊢
      by_cases hp : perFile = 0
      · subst hp
        simp only [if_true, Nat.zero_mul] at hc ⊢
        by_cases h0 : chan = 0
        · subst h0; simp at hc; subst hc; simp
        · rw [if_neg h0] at hc
          rw [if_pos (Nat.zero_le _)]; omega
      · rw [if_neg hp] at hc ⊢
        have hpos : 0 < perFile := Nat.pos_of_ne_zero hp
        by_cases h0 : chan = 0
        · subst h0
          rw [if_pos rfl] at hc
          subst hc
          rw [if_neg (by omega), Nat.zero_div]
        · rw [if_neg h0] at hc
          have h1 : perFile * counter ≤ chan - 1 := by rw [hc]; exact Nat.mul_div_le _ _
          have h2 : chan - 1 < perFile * (counter + 1) := by
            rw [hc]; exact Nat.lt_mul_div_succ _ hpos
          split
          · rename_i h3
            have : chan = perFile * (counter + 1) := by omega
            rw [this, Nat.mul_div_cancel_left _ hpos]
          · rename_i h3
            symm
            apply Nat.div_eq_of_lt_le
            · rw [Nat.mul_comm]; omega
            · rw [Nat.mul_comm]; omega
    rw [mcaLoop, linkLoop]
    rw [hnew]
    cases fs[fileOf perFile chan]? with
    | none => rfl
    | some f =>
      dsimp only [Option.map_some]
      cases put vds (.mca chan) (.mca f chan) with
      | error e => rfl
      | ok vds' =>
        dsimp only
        apply ih
        rw [if_neg (by omega)]; rfl

theorem files_spec (raw : String) (n : Nat) : (∃ fs, files raw n = .ok fs) → ∃ fs, files raw n = .ok fs ∧ fs.length = n ∧
    ∀ w f, fs[w]? = some f → WriterFile raw w f := by
  induction n with
  | zero => intro _; exact ⟨[], rfl, rfl, fun w f h => by simp at h⟩
  | succ n ih =>
    rintro ⟨fs, hfs⟩
    rw [files] at hfs
    split at hfs
    · rename_i l c hl hc
      obtain ⟨fs', h1, h2, h3⟩ := ih ⟨l, hl⟩
      rw [hl] at h1
      cases h1
      refine ⟨l ++ [fileName raw c], by rw [files, hl, hc], by simp [h2], ?_⟩
      intro w f hw
      rcases Nat.lt_trichotomy w n with h | h | h
      · rw [List.getElem?_append_left (by omega)] at hw
        exact h3 w f hw
      · subst h
        rw [List.getElem?_append_right (by omega), h2, Nat.sub_self] at hw
        simp at hw
        exact ⟨c, hc, hw.symm⟩
      · rw [List.getElem?_eq_none (by simp; omega)] at hw
        exact nomatch hw
    · exact nomatch hfs
    · exact nomatch hfs

theorem files_ok (raw : String) (n : Nat) (h : n ≤ 8) : ∃ fs, files raw n = .ok fs := by
  induction n with
  | zero => exact ⟨[], rfl⟩
  | succ n ih =>
    obtain ⟨fs, hfs⟩ := ih (by omega)
    have hl : ∃ c, letters[n]? = some c := by
      have : n < letters.length := by show n < 8; omega
      exact ⟨_, List.getElem?_eq_getElem this⟩
    obtain ⟨c, hc⟩ := hl
    exact ⟨_, by rw [files, hfs, hc]⟩

theorem files_err (raw : String) (n : Nat) (h : 8 < n) : files raw n = .error .indexError := by
  induction n with
  | zero => omega
  | succ n ih =>
    rw [files]
    rcases Nat.lt_or_ge 8 n with h8 | h8
    · rw [ih h8]
    · obtain ⟨fs, hfs⟩ := files_ok raw n (by omega)
      have : n = 8 := by omega
      subst this
      rw [hfs]
      rfl

/-! ### the axes -/

def putAll : List (Path × Node) → Dict Path Node → Except Exc (Dict Path Node)
  | [], vds => .ok vds
  | (p, n) :: l, vds =>
    match put vds p n with
    | .error e => .error e
    | .ok vds => putAll l vds

theorem putAll_append (l l' : List (Path × Node)) (vds : Dict Path Node) : putAll (l ++ l') vds =
    match putAll l vds with
    | .error e => .error e
    | .ok vds => putAll l' vds := by
  induction l generalizing vds with
  | nil => rfl
  | cons x l ih =>
    rw [List.cons_append, putAll, putAll]
    cases put vds x.1 x.2 with
    | error e => rfl
    | ok vds' => exact ih vds'

theorem axisLoop_eq (i : Nat) (as : List String) (vds : Dict Path Node) :
    axisLoop i as vds = putAll (as.map (fun a => (.axisSet a, .positions a i))) vds := by
  induction as generalizing vds with
  | nil => rfl
  | cons a as ih =>
    rw [axisLoop, List.map_cons, putAll]
    cases put vds (.axisSet a) (.positions a i) with
    | error e => rfl
    | ok vds' => exact ih vds'

def axisNodes : Nat → List Dim → List (Path × Node)
  | _, [] => []
  | i, d :: ds => d.axes.map (fun a => (.axisSet a, .positions a i)) ++ axisNodes (i + 1) ds

theorem dimLoop_eq (i : Nat) (ds : List Dim) (vds : Dict Path Node) : dimLoop i ds vds = putAll (axisNodes i ds) vds := by
  induction ds generalizing i vds with
  | nil => rfl
  | cons d ds ih =>
    rw [dimLoop, axisNodes, putAll_append, axisLoop_eq]
    cases putAll (d.axes.map (fun a => (.axisSet a, .positions a i))) vds with
    | error e => rfl
    | ok vds' => exact ih (i + 1) vds'

theorem axisNodes_fst (i : Nat) (ds : List Dim) :
    (axisNodes i ds).map (fun x : Path × Node => x.1) = (ds.flatMap (·.axes)).map .axisSet := by
  induction ds generalizing i with
  | nil => rfl
  | cons d ds ih =>
    rw [axisNodes, List.map_append, ih, List.flatMap_cons, List.map_append]
    congr 1
    rw [List.map_map]
    rfl

theorem mem_axisNodes (i : Nat) (ds : List Dim) (j : Nat) (d : Dim) (a : String) (hd : ds[j]? = some d) (ha : a ∈ d.axes) :
    (Path.axisSet a, Node.positions a (i + j)) ∈ axisNodes i ds := by
  induction ds generalizing i j with
  | nil => exact nomatch hd
  | cons d' ds ih =>
    rw [axisNodes, List.mem_append]
    cases j with
    | zero =>
      have : d' = d := by simpa using hd
      subst this
      exact .inl (List.mem_map.2 ⟨a, ha, rfl⟩)
    | succ j =>
      have := ih (i + 1) j (by simpa using hd)
      rw [show i + 1 + j = i + (j + 1) by omega] at this
      exact .inr this

theorem putAll_ok : ∀ (l : List (Path × Node)) (vds : Dict Path Node), (l.map (fun x : Path × Node => x.1)).Nodup →
    (∀ x ∈ l, Dict.get? vds x.1 = none) →
    ∃ vds', putAll l vds = .ok vds' ∧ (∀ x ∈ l, Dict.get? vds' x.1 = some x.2) ∧
      ∀ q, (∀ x ∈ l, q ≠ x.1) → Dict.get? vds' q = Dict.get? vds q := by
  intro l
  induction l with
  | nil => intro vds _ _; exact ⟨vds, rfl, (fun x hx => nomatch hx), fun _ _ => rfl⟩
  | cons y l ih =>
    intro vds hn hfree
    rw [List.map_cons, List.nodup_cons] at hn
    have hy : ∀ x ∈ l, y.1 ≠ x.1 := fun x hx h => hn.1 (List.mem_map.2 ⟨x, hx, h.symm⟩)
    obtain ⟨vds', h1, h2, h3⟩ := ih (Dict.set vds y.1 y.2) hn.2 (fun x hx => by
      rw [Dict.get?_set_ne _ _ (hy x hx)]; exact hfree x (List.mem_cons_of_mem _ hx))
    refine ⟨vds', ?_, ?_, ?_⟩
    · rw [putAll]
      simp only [put_ok vds y.1 y.2 (hfree y (List.mem_cons_self ..))]
      exact h1
    · intro x hx
      rcases List.mem_cons.1 hx with rfl | hx
      · rw [h3 _ hy, Dict.get?_set_self]
      · exact h2 x hx
    · intro q hq
      rw [h3 q (fun x hx => hq x (List.mem_cons_of_mem _ hx)),
        Dict.get?_set_ne _ _ (Ne.symm (hq y (List.mem_cons_self ..)))]

theorem putAll_content : ∀ (l : List (Path × Node)) (vds vds' : Dict Path Node), putAll l vds = .ok vds' →
    (l.map (fun x : Path × Node => x.1)).Nodup ∧ ∀ x ∈ l, Dict.get? vds x.1 = none := by
  intro l
  induction l with
  | nil => intro vds vds' _; exact ⟨List.nodup_nil, fun x hx => nomatch hx⟩
  | cons y l ih =>
    intro vds vds' h
    rw [putAll] at h
    cases hp : put vds y.1 y.2 with
    | error e => rw [hp] at h; exact nomatch h
    | ok v =>
      rw [hp] at h
      dsimp only at h
      have hfree : Dict.get? vds y.1 = none := by
        unfold put at hp
        split at hp
        · exact nomatch hp
        · rename_i hm
          cases hg : Dict.get? vds y.1 with
          | none => rfl
          | some z => simp [Dict.mem, hg] at hm
      rw [put_ok vds y.1 y.2 hfree] at hp
      cases hp
      obtain ⟨h1, h2⟩ := ih _ _ h
      constructor
      · rw [List.map_cons, List.nodup_cons]
        refine ⟨?_, h1⟩
        intro hm
        obtain ⟨x, hx, he⟩ := List.mem_map.1 hm
        have := h2 x hx
        rw [he, Dict.get?_set_self] at this
        exact nomatch this
      · intro x hx
        rcases List.mem_cons.1 hx with rfl | hx
        · exact hfree
        · have := h2 x hx
          by_cases he : y.1 = x.1
          · rw [he, Dict.get?_set_self] at this; exact nomatch this
          · rw [Dict.get?_set_ne _ _ he] at this; exact this

/-! ### the whole file -/

/-- what is in the file, `fs` being the files of the writers -/
structure Content (raw : String) (dims : List Dim) (child : Child) (numDatasets : Nat) (fs : List String)
    (vds : Dict Path Node) : Prop where
  mca : ∀ c, Dict.get? vds (.mca c) =
    if c < numDatasets then (fs[fileOf (numDatasets / child.processes) c]?).map (fun f => .mca f c) else none
  inside : ∀ c, c < numDatasets → fileOf (numDatasets / child.processes) c < fs.length
  uid : ∀ w, Dict.get? vds (.uid w) = if w < child.processes then (fs[w]?).map .uid else none
  scalar : ∀ i, Dict.get? vds (.scalar i) = if i < 9 then some (.scalar (metaFile raw) i) else none
  dtc : Dict.get? vds .dtc = some (.dtc (metaFile raw))
  data : Dict.get? vds .data = some (.images fs (Odin.filesShape (size dims) child.blockSize child.processes))
  rest : Dict.get? vds .entryData = none ∧ Dict.get? vds .entryUid = none ∧ ∀ a, Dict.get? vds (.axisSet a) = none

theorem createVds_cases (dims : List Dim) (raw : String) (child : Child) (n : Nat)
    (h1 : child.processes * child.blockSize ≠ 0) (h2 : (dims.drop 1).any (·.alternate) = false)
    (fs : List String) (h3 : files raw child.processes = .ok fs) (hlen : fs.length = child.processes) :
    ((∀ c, c < n → fileOf (n / child.processes) c < child.processes) →
      ∃ vds, createVds dims raw child n = .ok vds ∧ Content raw dims child n fs vds) ∧
    ((∃ c, c < n ∧ child.processes ≤ fileOf (n / child.processes) c) →
      createVds dims raw child n = .error .indexError) := by
  have hm := mcaLoop_eq (n / child.processes) fs n 0 0
    [(Path.data, Node.images fs (Odin.filesShape (size dims) child.blockSize child.processes))] rfl
  have hfree0 : ∀ p : Path, p ≠ .data → Dict.get?
      [(Path.data, Node.images fs (Odin.filesShape (size dims) child.blockSize child.processes))] p = none := by
    intro p hp
    simp only [Dict.get?]
    rw [if_neg (Ne.symm hp)]
  unfold createVds
  rw [if_neg h1, h2]
  simp only [h3, hm]
  constructor
  · intro hin
    obtain ⟨v1, e1, a1, b1⟩ := link_ok .mca (fun i j h => by cases h; rfl)
      (fun c => (fs[fileOf (n / child.processes) c]?).map (fun f => Node.mca f c)) n 0 _
      (fun j _ => hfree0 (.mca j) (by simp)) (fun j _ hj => by
        rw [List.getElem?_eq_getElem (by rw [hlen]; exact hin j (by omega))]
        exact ⟨_, rfl⟩)
    have f1 : ∀ j, Dict.get? v1 (.uid j) = none := fun j => by
      rw [b1 _ (by intro k _ _; simp)]; exact hfree0 _ (by simp)
    obtain ⟨v2, e2, a2, b2⟩ := link_ok .uid (fun i j h => by cases h; rfl)
      (fun f => (fs[f]?).map Node.uid) child.processes 0 v1 (fun j _ => f1 j) (fun j _ hj => by
        rw [List.getElem?_eq_getElem (by rw [hlen]; omega)]
        exact ⟨_, rfl⟩)
    obtain ⟨v3, e3, a3, b3⟩ := link_ok .scalar (fun i j h => by cases h; rfl)
      (fun i => some (Node.scalar (metaFile raw) i)) 9 0 v2 (fun j _ => by
        rw [b2 _ (by intro k _ _; simp), b1 _ (by intro k _ _; simp)]; exact hfree0 _ (by simp))
        (fun j _ _ => ⟨_, rfl⟩)
    have f3 : Dict.get? v3 .dtc = none := by
      rw [b3 _ (by intro k _ _; simp), b2 _ (by intro k _ _; simp), b1 _ (by intro k _ _; simp)]
      exact hfree0 _ (by simp)
    have other : ∀ q, q ≠ .dtc → (∀ j, q ≠ .mca j) → (∀ j, q ≠ .uid j) → (∀ j, q ≠ .scalar j) →
        Dict.get? (Dict.set v3 .dtc (.dtc (metaFile raw))) q = Dict.get?
          [(Path.data, Node.images fs (Odin.filesShape (size dims) child.blockSize child.processes))] q := by
      intro q q1 q2 q3 q4
      rw [Dict.get?_set_ne _ _ (Ne.symm q1), b3 _ (fun k _ _ => q4 k), b2 _ (fun k _ _ => q3 k), b1 _ (fun k _ _ => q2 k)]
    refine ⟨Dict.set v3 .dtc (.dtc (metaFile raw)), ?_, ?_⟩
    · simp only [Bool.false_eq_true, if_false, e1, e2, e3]
      exact put_ok _ _ _ f3
    · refine ⟨?_, ?_, ?_, ?_, ?_, ?_, ?_, ?_, ?_⟩
      · intro c
        rw [Dict.get?_set_ne _ _ (by simp), b3 _ (by intro k _ _; simp), b2 _ (by intro k _ _; simp)]
        by_cases hc : c < n
        · rw [if_pos hc, a1 c (Nat.zero_le _) (by omega)]
        · rw [if_neg hc, b1 _ (by intro k _ hk h; cases h; omega)]
          exact hfree0 _ (by simp)
      · intro c hc; rw [hlen]; exact hin c hc
      · intro w
        rw [Dict.get?_set_ne _ _ (by simp), b3 _ (by intro k _ _; simp)]
        by_cases hw : w < child.processes
        · rw [if_pos hw, a2 w (Nat.zero_le _) (by omega)]
        · rw [if_neg hw, b2 _ (by intro k _ hk h; cases h; omega)]
          exact f1 w
      · intro i
        rw [Dict.get?_set_ne _ _ (by simp)]
        by_cases hi : i < 9
        · rw [if_pos hi, a3 i (Nat.zero_le _) (by omega)]
        · rw [if_neg hi, b3 _ (by intro k _ hk h; cases h; omega), b2 _ (by intro k _ _; simp),
            b1 _ (by intro k _ _; simp)]
          exact hfree0 _ (by simp)
      · exact Dict.get?_set_self _ _ _
      · rw [other _ (by simp) (by simp) (by simp) (by simp)]; rfl
      · rw [other _ (by simp) (by simp) (by simp) (by simp)]; exact hfree0 _ (by simp)
      · rw [other _ (by simp) (by simp) (by simp) (by simp)]; exact hfree0 _ (by simp)
      · intro a
        rw [other _ (by simp) (by simp) (by simp) (by simp)]; exact hfree0 _ (by simp)
  · rintro ⟨c, hc, hbad⟩
    have e1 := link_err .mca (fun i j h => by cases h; rfl)
      (fun c => (fs[fileOf (n / child.processes) c]?).map (fun f => Node.mca f c)) n 0 _
      (fun j _ => hfree0 (.mca j) (by simp)) ⟨c, Nat.zero_le _, by omega, by
        rw [List.getElem?_eq_none (by omega)]; rfl⟩
    simp only [Bool.false_eq_true, if_false, e1]

/-- what `onConfigure` needs and gives, if it succeeds -/
theorem configure_content (p p' : Part) (child : Child) (raw : String) (dims : List Dim) (ps du : Nat) (c t : Int)
    (vds : Dict Path Node) (infos : List Dataset) (ch : Nat)
    (h : onConfigure p child raw dims ps du c t = .ok (p', vds, infos, ch)) :
    ∃ fs v0, files raw child.processes = .ok fs ∧ fs.length = child.processes ∧
      (∀ w f, fs[w]? = some f → WriterFile raw w f) ∧ Content raw dims child p.datasets fs v0 ∧
      (∀ q, q ≠ .entryData → (∀ a, q ≠ .axisSet a) → Dict.get? vds q = Dict.get? v0 q) ∧
      Dict.get? vds .entryData = Dict.get? v0 .data ∧
      (∀ i d a, dims[i]? = some d → a ∈ d.axes → Dict.get? vds (.axisSet a) = some (.positions a i)) ∧
      p' = { p with doneWhen := c + p.pairs * t, offset := 0 } ∧
      infos = primaryInfos dims ++ rawInfos (dims.length + 2) p.datasets p.pairs ∧ ch = chunk ps du := by
  unfold onConfigure at h
  dsimp only at h
  split at h
  · exact nomatch h
  cases hv : createVds dims raw child p.datasets with
  | error e => rw [hv] at h; exact nomatch h
  | ok v0 =>
    rw [hv] at h
    dsimp only at h
    cases hx : addNexus dims v0 with
    | error e => rw [hx] at h; exact nomatch h
    | ok v1 =>
      rw [hx] at h
      dsimp only at h
      cases hf : files raw p.pairs with
      | error e => rw [hf] at h; exact nomatch h
      | ok l =>
        rw [hf] at h
        dsimp only at h
        simp only [Except.ok.injEq, Prod.mk.injEq] at h
        obtain ⟨rfl, rfl, rfl, rfl⟩ := h
        -- the files
        have h1 : child.processes * child.blockSize ≠ 0 := by
          intro h0; unfold createVds at hv; rw [if_pos h0] at hv; exact nomatch hv
        have h2 : (dims.drop 1).any (·.alternate) = false := by
          cases h0 : (dims.drop 1).any (·.alternate) with
          | false => rfl
          | true => unfold createVds at hv; rw [if_neg h1, h0] at hv; exact nomatch hv
        have h3 : ∃ fs, files raw child.processes = .ok fs := by
          cases h0 : files raw child.processes with
          | ok fs => exact ⟨fs, rfl⟩
          | error e => unfold createVds at hv; rw [if_neg h1, h2, h0] at hv; exact nomatch hv
        obtain ⟨fs, k1, k2, k3⟩ := files_spec raw child.processes h3
        obtain ⟨g1, g2⟩ := createVds_cases dims raw child p.datasets h1 h2 fs k1 k2
        have hin : ∀ c, c < p.datasets → fileOf (p.datasets / child.processes) c < child.processes := by
          intro c hc
          rcases Nat.lt_or_ge (fileOf (p.datasets / child.processes) c) child.processes with h | h
          · exact h
          · rw [g2 ⟨c, hc, h⟩] at hv; exact nomatch hv
        obtain ⟨v, e1, e2⟩ := g1 hin
        rw [hv] at e1
        cases e1
        -- the nexus nodes
        unfold addNexus at hx
        rw [e2.data] at hx
        dsimp only at hx
        rw [put_ok _ _ _ e2.rest.1] at hx
        dsimp only at hx
        rw [dimLoop_eq] at hx
        obtain ⟨n1, n2⟩ := putAll_content _ _ _ hx
        obtain ⟨v', m1, m2, m3⟩ := putAll_ok _ _ n1 n2
        rw [hx] at m1
        cases m1
        have hnot : ∀ q, (∀ a, q ≠ Path.axisSet a) → ∀ x ∈ axisNodes 0 dims, q ≠ x.1 := by
          intro q hq x hx he
          have : x.1 ∈ (axisNodes 0 dims).map (fun x : Path × Node => x.1) := List.mem_map.2 ⟨x, hx, rfl⟩
          rw [axisNodes_fst] at this
          obtain ⟨a, -, ha⟩ := List.mem_map.1 this
          exact hq a (by rw [he, ha])
        refine ⟨fs, v0, k1, k2, k3, e2, ?_, ?_, ?_, rfl, rfl, rfl⟩
        · intro q q1 q2
          rw [m3 q (hnot q q2), Dict.get?_set_ne _ _ (Ne.symm q1)]
        · rw [m3 _ (hnot _ (by simp)), Dict.get?_set_self, e2.data]
        · intro i d a hd ha
          have := m2 _ (mem_axisNodes 0 dims i d a hd ha)
          rw [Nat.zero_add] at this
          exact this

/-- C94: when the channels can be shared equally among the writers, the file that `configure` makes is complete: every
channel leads to the file of the writer that writes it, and so do the other datasets. -/
theorem file_complete (p p' : Part) (child : Child) (raw : String) (dims : List Dim) (ps du : Nat) (c t : Int)
    (vds : Dict Path Node) (infos : List Dataset) (ch : Nat)
    (h : onConfigure p child raw dims ps du c t = .ok (p', vds, infos, ch))
    (hdiv : child.processes ∣ p.datasets) :
    Complete raw dims child.blockSize child.processes p.datasets vds := by
  obtain ⟨fs, v0, k1, k2, k3, hc, ho, he, ha, -⟩ := configure_content p p' child raw dims ps du c t vds infos ch h
  have look : ∀ w, w < child.processes → ∃ f, fs[w]? = some f ∧ WriterFile raw w f := by
    intro w hw
    have := List.getElem?_eq_getElem (l := fs) (i := w) (by omega)
    exact ⟨_, this, k3 w _ this⟩
  refine ⟨?_, ?_, ?_, ?_, ⟨fs, k2, k3, ?_, ?_⟩, ha⟩
  · intro w k hw hk
    have hpos : 0 < p.datasets / child.processes := by omega
    have hlt : w * (p.datasets / child.processes) + k < p.datasets := by
      obtain ⟨m, hm⟩ := hdiv
      have hwp : 0 < child.processes := by omega
      have hm' : p.datasets / child.processes = m := by rw [hm, Nat.mul_div_cancel_left _ hwp]
      rw [hm'] at hk ⊢
      have h1 : (w + 1) * m ≤ child.processes * m := Nat.mul_le_mul_right m hw
      rw [Nat.add_mul, Nat.one_mul] at h1
      omega
    obtain ⟨f, hf1, hf2⟩ := look w hw
    refine ⟨f, hf2, ?_⟩
    rw [ho _ (by simp) (by simp), hc.mca, if_pos hlt]
    have : fileOf (p.datasets / child.processes) (w * (p.datasets / child.processes) + k) = w := by
      unfold fileOf
      rw [if_neg (by omega), Nat.mul_comm, Nat.mul_add_div hpos, Nat.div_eq_of_lt hk, Nat.add_zero]
    rw [this, hf1]
    rfl
  · intro w hw
    obtain ⟨f, hf1, hf2⟩ := look w hw
    exact ⟨f, hf2, by rw [ho _ (by simp) (by simp), hc.uid, if_pos hw, hf1]; rfl⟩
  · intro i hi
    rw [ho _ (by simp) (by simp), hc.scalar, if_pos hi]; rfl
  · rw [ho _ (by simp) (by simp), hc.dtc]; rfl
  · rw [he, hc.data, size_points]
  · rw [he, ho _ (by simp) (by simp)]

/-- C94: every dataset that `configure` announces is in the file it made, and has the rank of the scan and the
detector, where there are no more pairs than writers. -/
theorem announced_there (p p' : Part) (child : Child) (raw : String) (dims : List Dim) (ps du : Nat) (c t : Int)
    (vds : Dict Path Node) (infos : List Dataset) (ch : Nat)
    (h : onConfigure p child raw dims ps du c t = .ok (p', vds, infos, ch)) (hp : p.pairs ≤ child.processes) :
    ∀ i ∈ infos, (∃ n, Dict.get? vds i.path = some n) ∧
      (i.rank = dims.length + 2 ∨ ∃ a, i.path = .axisSet a ∧ i.rank = 1) := by
  obtain ⟨fs, v0, k1, k2, k3, hc, ho, he, ha, -, rfl, -⟩ := configure_content p p' child raw dims ps du c t vds infos ch h
  intro i hi
  rcases List.mem_append.1 hi with hi | hi
  · rcases List.mem_cons.1 hi with rfl | hi
    · exact ⟨⟨_, by rw [he, hc.data]⟩, .inl rfl⟩
    · obtain ⟨a, ham, rfl⟩ := List.mem_map.1 hi
      obtain ⟨d, hd, had⟩ := List.mem_flatMap.1 ham
      obtain ⟨j, hj, rfl⟩ := List.mem_iff_getElem.1 hd
      exact ⟨⟨_, ha j _ a (List.getElem?_eq_getElem hj) had⟩, .inr ⟨a, rfl, rfl⟩⟩
  · simp only [rawInfos, List.mem_append, List.mem_map, List.mem_range, List.mem_singleton] at hi
    rcases hi with ((⟨k, hk, rfl⟩ | ⟨k, hk, rfl⟩) | ⟨k, hk, rfl⟩) | rfl
    · refine ⟨?_, .inl rfl⟩
      show ∃ n, Dict.get? vds (.mca k) = some n
      rw [ho _ (by simp) (by simp), hc.mca, if_pos hk, List.getElem?_eq_getElem (hc.inside k hk)]
      exact ⟨_, rfl⟩
    · refine ⟨?_, .inl rfl⟩
      show ∃ n, Dict.get? vds (.scalar k) = some n
      rw [ho _ (by simp) (by simp), hc.scalar, if_pos hk]
      exact ⟨_, rfl⟩
    · refine ⟨?_, .inl rfl⟩
      show ∃ n, Dict.get? vds (.uid k) = some n
      rw [ho _ (by simp) (by simp), hc.uid, if_pos (by omega), List.getElem?_eq_getElem (by omega)]
      exact ⟨_, rfl⟩
    · exact ⟨⟨_, by show Dict.get? vds .dtc = _; rw [ho _ (by simp) (by simp), hc.dtc]⟩, .inl rfl⟩

/-- C94: `configure` succeeds for any number of channels shared equally among up to eight writers, any dimensions of
which only the first alternates, and any duration. -/
theorem configure_succeeds (p : Part) (child : Child) (raw : String) (dims : List Dim) (ps du : Nat) (c t : Int)
    (hb : 0 < child.blockSize) (hw : 0 < child.processes) (hw8 : child.processes ≤ 8) (hp8 : p.pairs ≤ 8)
    (hdiv : child.processes ∣ p.datasets) (halt : ∀ d ∈ dims.drop 1, d.alternate = false)
    (hax : (dims.flatMap (·.axes)).Nodup) (hdu : 0 < du) :
    ∃ r, onConfigure p child raw dims ps du c t = .ok r := by
  obtain ⟨fs0, hf0⟩ := files_ok raw child.processes hw8
  obtain ⟨fs, k1, k2, k3⟩ := files_spec raw child.processes ⟨fs0, hf0⟩
  have h2 : (dims.drop 1).any (·.alternate) = false := by
    rw [List.any_eq_false]; intro d hd; rw [halt d hd]; decide
  obtain ⟨v0, e1, e2⟩ := (createVds_cases dims raw child p.datasets (Nat.ne_of_gt (Nat.mul_pos hw hb)) h2 fs k1 k2).1 (by
    intro c hc
    obtain ⟨m, hm⟩ := hdiv
    have hm' : p.datasets / child.processes = m := by rw [hm, Nat.mul_div_cancel_left _ hw]
    unfold fileOf
    rw [hm']
    split
    · rename_i h0; rw [hm, h0] at hc; omega
    · rename_i h0
      rw [Nat.div_lt_iff_lt_mul (Nat.pos_of_ne_zero h0), ← hm]; exact hc)
  obtain ⟨l, hl⟩ := files_ok raw p.pairs hp8
  have hn : ((axisNodes 0 dims).map (fun x : Path × Node => x.1)).Nodup := by
    rw [axisNodes_fst, List.Nodup, List.pairwise_map]
    exact hax.imp fun h he => h (by cases he; rfl)
  obtain ⟨v, m1, -⟩ := putAll_ok (axisNodes 0 dims)
    (Dict.set v0 .entryData (.images fs (Odin.filesShape (size dims) child.blockSize child.processes))) hn (by
      intro x hx
      have : x.1 ∈ (axisNodes 0 dims).map (fun x : Path × Node => x.1) := List.mem_map.2 ⟨x, hx, rfl⟩
      rw [axisNodes_fst] at this
      obtain ⟨a, -, ha⟩ := List.mem_map.1 this
      rw [← ha, Dict.get?_set_ne _ _ (by simp)]
      exact e2.rest.2.2 a)
  have hx : addNexus dims v0 = .ok v := by
    unfold addNexus
    rw [e2.data]
    dsimp only
    rw [put_ok _ _ _ e2.rest.1]
    dsimp only
    rw [dimLoop_eq, m1]
  unfold onConfigure
  dsimp only
  rw [if_neg (by omega), e1]
  dsimp only
  rw [hx]
  dsimp only
  rw [hl]
  exact ⟨_, rfl⟩

/-- C94 fails where there are more channels than writers and they can not be shared equally: `configure` fails. -/
theorem unequal_channels_refused (p : Part) (child : Child) (raw : String) (dims : List Dim) (ps du : Nat) (c t : Int)
    (hdu : 0 < du) (hb : 0 < child.blockSize) (hw : 0 < child.processes) (hw8 : child.processes ≤ 8)
    (halt : ∀ d ∈ dims.drop 1, d.alternate = false) (hmore : child.processes ≤ p.datasets)
    (hdiv : ¬ child.processes ∣ p.datasets) :
    onConfigure p child raw dims ps du c t = .error .indexError := by
  obtain ⟨fs0, hf0⟩ := files_ok raw child.processes hw8
  obtain ⟨fs, k1, k2, k3⟩ := files_spec raw child.processes ⟨fs0, hf0⟩
  have h2 : (dims.drop 1).any (·.alternate) = false := by
    rw [List.any_eq_false]; intro d hd; rw [halt d hd]; decide
  have h := (createVds_cases dims raw child p.datasets (Nat.ne_of_gt (Nat.mul_pos hw hb)) h2 fs k1 k2).2 (by
    have hq : 0 < p.datasets / child.processes := Nat.div_pos hmore hw
    refine ⟨p.datasets / child.processes * child.processes, ?_, ?_⟩
    · have h3 := Nat.div_add_mod p.datasets child.processes
      have h4 : p.datasets % child.processes ≠ 0 := fun h => hdiv (Nat.dvd_of_mod_eq_zero h)
      rw [Nat.mul_comm]
      omega
    · unfold fileOf
      rw [if_neg (by omega), Nat.mul_div_cancel_left _ hq])
  unfold onConfigure
  dsimp only
  rw [if_neg (by omega), h]

/-- C94 fails where there are fewer channels than writers: every channel leads to the file of the writer after the
one that writes it. -/
theorem few_channels_shifted (p p' : Part) (child : Child) (raw : String) (dims : List Dim) (ps du : Nat) (c t : Int)
    (vds : Dict Path Node) (infos : List Dataset) (ch : Nat)
    (h : onConfigure p child raw dims ps du c t = .ok (p', vds, infos, ch)) (hfew : p.datasets < child.processes) :
    ∀ k, k < p.datasets → ∃ f, WriterFile raw (k + 1) f ∧ Dict.get? vds (.mca k) = some (.mca f k) := by
  obtain ⟨fs, v0, k1, k2, k3, hc, ho, he, ha, -⟩ := configure_content p p' child raw dims ps du c t vds infos ch h
  intro k hk
  have hin := hc.inside k hk
  have h0 : p.datasets / child.processes = 0 := Nat.div_eq_of_lt hfew
  have hfo : fileOf (p.datasets / child.processes) k = k + 1 := by unfold fileOf; rw [if_pos h0]
  rw [hfo] at hin
  have hg := List.getElem?_eq_getElem hin
  exact ⟨_, k3 _ _ hg, by rw [ho _ (by simp) (by simp), hc.mca, if_pos hk, hfo, hg]; rfl⟩

/-- C94 fails for more than eight writers. -/
theorem nine_writers_refused (p : Part) (child : Child) (raw : String) (dims : List Dim) (ps du : Nat) (c t : Int)
    (hdu : 0 < du) (hb : 0 < child.blockSize) (hw : 8 < child.processes)
    (halt : ∀ d ∈ dims.drop 1, d.alternate = false) :
    onConfigure p child raw dims ps du c t = .error .indexError := by
  have h2 : (dims.drop 1).any (·.alternate) = false := by
    rw [List.any_eq_false]; intro d hd; rw [halt d hd]; decide
  have h : createVds dims raw child p.datasets = .error .indexError := by
    unfold createVds
    rw [if_neg (Nat.ne_of_gt (Nat.mul_pos (by omega) hb)), h2]
    simp [files_err raw child.processes hw]
  unfold onConfigure
  dsimp only
  rw [if_neg (by omega), h]

/-- C94 fails for the unique ids: the dataset that is said to hold them is never made. -/
theorem uniqueid_never_there (p p' : Part) (child : Child) (raw : String) (dims : List Dim) (ps du : Nat) (c t : Int)
    (vds : Dict Path Node) (infos : List Dataset) (ch : Nat)
    (h : onConfigure p child raw dims ps du c t = .ok (p', vds, infos, ch)) :
    ∃ i ∈ infos, ∃ u, i.uniqueid = some u ∧ Dict.get? vds u = none := by
  obtain ⟨fs, v0, k1, k2, k3, hc, ho, he, ha, -, rfl, -⟩ := configure_content p p' child raw dims ps du c t vds infos ch h
  exact ⟨_, List.mem_append_left _ (List.mem_cons_self ..), .entryUid, rfl,
    by rw [ho _ (by simp) (by simp)]; exact hc.rest.2.1⟩

/-- C94 fails where there are more pairs than writers: the ids of the rest are announced, but not there. -/
theorem more_pairs_than_writers (p p' : Part) (child : Child) (raw : String) (dims : List Dim) (ps du : Nat) (c t : Int)
    (vds : Dict Path Node) (infos : List Dataset) (ch : Nat)
    (h : onConfigure p child raw dims ps du c t = .ok (p', vds, infos, ch)) (hp : child.processes < p.pairs) :
    ∃ i ∈ infos, Dict.get? vds i.path = none := by
  obtain ⟨fs, v0, k1, k2, k3, hc, ho, he, ha, -, rfl, -⟩ := configure_content p p' child raw dims ps du c t vds infos ch h
  refine ⟨⟨.uid child.processes, dims.length + 2, none⟩, List.mem_append_right _ ?_, ?_⟩
  · simp only [rawInfos, List.mem_append, List.mem_map, List.mem_range, List.mem_singleton]
    exact .inl (.inr ⟨_, hp, rfl⟩)
  · show Dict.get? vds (.uid child.processes) = none
    rw [ho _ (by simp) (by simp), hc.uid, if_neg (by omega)]

/-- C94 fails for the images where the frames do not fill all blocks of all files but one less than a file each: vdsgen
is told of more frames than are written. -/
theorem images_of_frames_not_written (p p' : Part) (child : Child) (raw : String) (dims : List Dim) (ps du : Nat)
    (c t : Int) (vds : Dict Path Node) (infos : List Dataset) (ch : Nat)
    (h : onConfigure p child raw dims ps du c t = .ok (p', vds, infos, ch)) (hb : 0 < child.blockSize)
    (hw : 0 < child.processes) :
    ∃ fs frames, Dict.get? vds .entryData = some (.images fs frames) ∧
      (frames.sum = points dims ↔ points dims % (child.processes * child.blockSize) < child.processes) := by
  obtain ⟨fs, v0, k1, k2, k3, hc, ho, he, ha, -⟩ := configure_content p p' child raw dims ps du c t vds infos ch h
  rw [← size_points]
  exact ⟨fs, _, by rw [he, hc.data], Odin.shapes_add_up_iff _ _ _ hb hw⟩

/-! ### the frames -/

/-- A scan cut into runs: after `configure` with the first window, `on_post_run_armed` with each of the others. -/
def windows (p : Part) : List Int → Part
  | [] => p
  | w :: ws => windows (onPostRunArmed p w) ws

/-- C94: each run is over exactly when all pairs have captured as many frames as the steps of all runs so far, and
what is reported on the way is how many frames were captured. -/
theorem runs_count (p p' : Part) (child : Child) (raw : String) (dims : List Dim) (ps du : Nat) (t : Int) (ws : List Int)
    (vds : Dict Path Node) (infos : List Dataset) (ch : Nat)
    (h : onConfigure p child raw dims ps du 0 t = .ok (p', vds, infos, ch)) (captured : Int) :
    (runOver (windows p' ws) captured = true ↔ captured = p.pairs * (t + ws.sum)) ∧
    progress (windows p' ws) captured = captured := by
  obtain ⟨fs, v0, -, -, -, -, -, -, -, rfl, -⟩ := configure_content p p' child raw dims ps du 0 t vds infos ch h
  have key : ∀ (ws : List Int) (q : Part), (windows q ws).doneWhen = q.doneWhen + q.pairs * ws.sum ∧
      (windows q ws).offset = q.offset := by
    intro ws
    induction ws with
    | nil => intro q; simp [windows]
    | cons w ws ih =>
      intro q
      obtain ⟨h1, h2⟩ := ih (onPostRunArmed q w)
      refine ⟨?_, h2⟩
      rw [windows, h1, List.sum_cons]
      show q.doneWhen + (q.pairs : Int) * w + (q.pairs : Int) * ws.sum = _
      rw [Int.mul_add]; omega
  obtain ⟨h1, h2⟩ := key ws { p with doneWhen := 0 + p.pairs * t, offset := 0 }
  constructor
  · unfold runOver
    rw [h1, decide_eq_true_eq]
    show captured = 0 + (p.pairs : Int) * t + (p.pairs : Int) * ws.sum ↔ _
    rw [Int.mul_add]; omega
  · unfold progress
    rw [h2]
    show captured + 0 = captured
    omega

/-- C94 fails for the progress where there are several pairs: at the end of the scan the part reports more steps than
the scan has. -/
theorem progress_past_the_end (p p' : Part) (child : Child) (raw : String) (dims : List Dim) (ps du : Nat) (t : Int)
    (vds : Dict Path Node) (infos : List Dataset) (ch : Nat)
    (h : onConfigure p child raw dims ps du 0 t = .ok (p', vds, infos, ch)) (ht : 0 < t) (hp : 1 < p.pairs)
    (captured : Int) (hover : runOver p' captured = true) : t < progress p' captured := by
  obtain ⟨h1, h2⟩ := runs_count p p' child raw dims ps du t [] vds infos ch h captured
  have h3 := h1.1 hover
  rw [show windows p' [] = p' from rfl] at h2
  rw [h2, h3]
  simp only [List.sum_nil, Int.add_zero]
  have : (2 : Int) * t ≤ p.pairs * t := Int.mul_le_mul_of_nonneg_right (by omega) (by omega)
  omega

/-- C94 fails for a rewind: `pause` always fails. -/
theorem pause_refused (p : Part) : onPause p = .error .notImplemented := rfl

/-- C94: chunks have at least one frame and at most 4096. -/
theorem chunk_bounds (ps du : Nat) : 1 ≤ chunk ps du ∧ chunk ps du ≤ 4096 := by
  unfold chunk
  dsimp only
  split <;> split <;> omega

/-- C94: a chunk holds the frames that end within one second, if these are at least 1 and less than 4000. -/
theorem chunk_one_second (ps du n : Nat) (h1 : 1 ≤ n) (h2 : n < 4000) (h3 : n * du ≤ ps) (h4 : ps < (n + 1) * du) : chunk ps du = n := by
  have : ps / du = n := Nat.div_eq_of_lt_le (by omega) (by omega)
  unfold chunk
  dsimp only
  rw [this, if_neg (show ¬ n < 1 by omega), if_neg (by omega)]

/-- C94: it holds 4096 frames if 4000 or more end within one second, and 1 if none does. -/
theorem chunk_ends (ps du : Nat) (h0 : 0 < du) : (4000 * du ≤ ps → chunk ps du = 4096) ∧ (ps < du → chunk ps du = 1) := by
  constructor <;> intro h
  · have : 4000 ≤ ps / du := (Nat.le_div_iff_mul_le h0).2 h
    unfold chunk
    dsimp only
    rw [if_neg (show ¬ ps / du < 1 by omega), if_pos this]
  · have : ps / du = 0 := Nat.div_eq_of_lt h
    unfold chunk
    dsimp only
    rw [this]; rfl

example : chunk 1000000 3000 = 333 ∧ chunk 1000000 250 = 4096 ∧ chunk 1000000 251 = 3984 ∧ chunk 1000000 2000000 = 1 := by decide

/-! ### non-vacuity: a grid of 3 by 4 with eight channels and two writers -/

def grid : List Dim := [⟨["y"], 3, true⟩, ⟨["x"], 4, false⟩]

def demo : Part := { pairs := 2, datasets := 8 }

/-- The hypotheses of `configure_succeeds` are met, and so are those of `file_complete` and `announced_there`. -/
example : ∃ r, onConfigure demo ⟨1, 2⟩ "scan_raw_data" grid 1000000 100000 0 12 = .ok r :=
  configure_succeeds demo ⟨1, 2⟩ "scan_raw_data" grid 1000000 100000 0 12 (by decide) (by decide) (by decide) (by decide)
    (by decide) (by decide) (by decide) (by decide)

/-- of `few_channels_shifted`: one channel and two writers -/
example : ∃ vds, createVds grid "r" ⟨1, 2⟩ 1 = .ok vds ∧ Dict.get? vds (.mca 0) = some (.mca "r_B_000000.h5" 0) := by
  obtain ⟨g, -⟩ := createVds_cases grid "r" ⟨1, 2⟩ 1 (by decide) (by decide) ["r_A_000000.h5", "r_B_000000.h5"]
    (by rfl) rfl
  obtain ⟨vds, h1, h2⟩ := g (by decide)
  exact ⟨vds, h1, h2.mca 0⟩

end Verif.Props.Xspress
