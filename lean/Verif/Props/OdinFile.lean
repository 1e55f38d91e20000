import Verif.Spec.OdinFile
import Verif.Props.Odin
import Verif.Proofs.PyDict
/-!
C103: the file of an Odin detector.
-/
namespace Verif.Props.OdinFile
open Verif Verif.OdinFile Verif.Spec.OdinFile

/-! ### putting nodes -/

theorem put_ok (vds : Dict Path Node) (p : Path) (n : Node) (h : Dict.get? vds p = none) :
    put vds p n = .ok (Dict.set vds p n) := by
  unfold put
  rw [if_neg]
  simp [Dict.mem, h]

def keys (l : List (Path × Node)) : List Path := l.map Prod.fst

theorem putAll_ok : ∀ (l : List (Path × Node)) (vds : Dict Path Node), (keys l).Nodup →
    (∀ x ∈ l, Dict.get? vds x.1 = none) →
    ∃ vds', putAll l vds = .ok vds' ∧ (∀ x ∈ l, Dict.get? vds' x.1 = some x.2) ∧
      ∀ q, q ∉ keys l → Dict.get? vds' q = Dict.get? vds q := by
  intro l
  induction l with
  | nil => intro vds _ _; exact ⟨vds, rfl, (fun x hx => nomatch hx), fun _ _ => rfl⟩
  | cons y l ih =>
    intro vds hn hfree
    rw [keys, List.map_cons, List.nodup_cons] at hn
    have hy : ∀ x ∈ l, y.1 ≠ x.1 := fun x hx h => hn.1 (List.mem_map.2 ⟨x, hx, h.symm⟩)
    obtain ⟨vds', h1, h2, h3⟩ := ih (Dict.set vds y.1 y.2) hn.2 (fun x hx => by
      rw [Dict.get?_set_ne _ _ (hy x hx)]; exact hfree x (List.mem_cons_of_mem _ hx))
    refine ⟨vds', ?_, ?_, ?_⟩
    · rw [putAll]
      simp only [put_ok vds y.1 y.2 (hfree y (List.mem_cons_self ..))]
      exact h1
    · intro x hx
      rcases List.mem_cons.1 hx with rfl | hx
      · rw [h3 _ hn.1, Dict.get?_set_self]
      · exact h2 x hx
    · intro q hq
      rw [keys, List.map_cons, List.mem_cons, not_or] at hq
      rw [h3 q hq.2, Dict.get?_set_ne _ _ (Ne.symm hq.1)]

theorem putAll_content : ∀ (l : List (Path × Node)) (vds vds' : Dict Path Node), putAll l vds = .ok vds' →
    (keys l).Nodup ∧ ∀ x ∈ l, Dict.get? vds x.1 = none := by
  intro l
  induction l with
  | nil => intro vds vds' _; exact ⟨List.nodup_nil, fun x hx => nomatch hx⟩
  | cons y l ih =>
    intro vds vds' h
    rw [putAll] at h
    cases hp : put vds y.1 y.2 with
    | error e => rw [hp] at h; exact nomatch h
    | ok v =>
      rw [hp] at h
      dsimp only at h
      have hfree : Dict.get? vds y.1 = none := by
        unfold put at hp
        split at hp
        · exact nomatch hp
        · rename_i hm
          cases hg : Dict.get? vds y.1 with
          | none => rfl
          | some z => simp [Dict.mem, hg] at hm
      rw [put_ok vds y.1 y.2 hfree] at hp
      cases hp
      obtain ⟨h1, h2⟩ := ih _ _ h
      constructor
      · rw [keys, List.map_cons, List.nodup_cons]
        refine ⟨?_, h1⟩
        intro hm
        obtain ⟨x, hx, he⟩ := List.mem_map.1 hm
        have := h2 x hx
        rw [he, Dict.get?_set_self] at this
        exact nomatch this
      · intro x hx
        rcases List.mem_cons.1 hx with rfl | hx
        · exact hfree
        · have := h2 x hx
          by_cases he : y.1 = x.1
          · rw [he, Dict.get?_set_self] at this; exact nomatch this
          · rw [Dict.get?_set_ne _ _ he] at this; exact this

/-! ### the datasets and the links -/

theorem mem_links (fs : List Text) : ∀ c x, x ∈ links fs c ↔ ∃ i f, fs[i]? = some f ∧
    (x = (Path.raw (c + i), Node.link f "/data".toList) ∨ x = (Path.uid (c + i), Node.link f "/uid".toList)) := by
  induction fs with
  | nil => intro c x; simp [links]
  | cons g fs ih =>
    intro c x
    rw [links, List.mem_cons, List.mem_cons, ih (c + 1) x]
    constructor
    · rintro (h | h | ⟨i, f, h1, h2⟩)
      · exact ⟨0, g, rfl, Or.inl h⟩
      · exact ⟨0, g, rfl, Or.inr h⟩
      · refine ⟨i + 1, f, by simpa using h1, ?_⟩
        rw [show c + (i + 1) = c + 1 + i by omega]
        exact h2
    · rintro ⟨i, f, h1, h2⟩
      cases i with
      | zero =>
        have : g = f := by simpa using h1
        subst this
        rcases h2 with h2 | h2
        · exact Or.inl h2
        · exact Or.inr (Or.inl h2)
      | succ i =>
        rw [show c + (i + 1) = c + 1 + i by omega] at h2
        exact Or.inr (Or.inr ⟨i, f, by simpa using h1, h2⟩)

theorem links_ge (fs : List Text) (c : Nat) (q : Path) (h : q ∈ keys (links fs c)) :
    ∃ i, i < fs.length ∧ (q = .raw (c + i) ∨ q = .uid (c + i)) := by
  obtain ⟨x, hx, rfl⟩ := List.mem_map.1 h
  obtain ⟨i, f, h1, h2⟩ := (mem_links fs c x).1 hx
  have hi : i < fs.length := by
    rcases Nat.lt_or_ge i fs.length with hlt | hge
    · exact hlt
    · rw [List.getElem?_eq_none hge] at h1; cases h1
  refine ⟨i, hi, ?_⟩
  rcases h2 with rfl | rfl
  · exact Or.inl rfl
  · exact Or.inr rfl

theorem links_nodup (fs : List Text) : ∀ c, (keys (links fs c)).Nodup := by
  induction fs with
  | nil => intro c; exact List.nodup_nil
  | cons g fs ih =>
    intro c
    rw [links, keys, List.map_cons, List.map_cons, List.nodup_cons, List.nodup_cons]
    refine ⟨?_, ?_, ih (c + 1)⟩
    · intro h
      rcases List.mem_cons.1 h with h | h
      · cases h
      · obtain ⟨i, _, h | h⟩ := links_ge fs (c + 1) _ h
        · have : c = c + 1 + i := by simpa using h
          omega
        · cases h
    · intro h
      obtain ⟨i, _, h | h⟩ := links_ge fs (c + 1) _ h
      · cases h
      · have : c = c + 1 + i := by simpa using h
        omega

/-- what `create_vds` puts -/
def vdsNodes (n : Names) (dims : List Dim) (child : Child) (p : Part) : List (Path × Node) :=
  oneVds (files n child) dims child "data".toList .data ++ links (files n child) 1 ++
    oneVds (files n child) dims child p.uidName .uid ++ oneVds (files n child) dims child p.sumName .sum

theorem vdsNodes_nodup (n : Names) (dims : List Dim) (child : Child) (p : Part) : (keys (vdsNodes n dims child p)).Nodup := by
  have hl := links_nodup (files n child) 1
  have hk : keys (vdsNodes n dims child p) = [.interleave .data, .top .data] ++ keys (links (files n child) 1) ++
      [.interleave .uid, .top .uid] ++ [.interleave .sum, .top .sum] := by
    simp [keys, vdsNodes, oneVds]
  have hno : ∀ q, q ∈ keys (links (files n child) 1) → (∀ k, q ≠ .interleave k) ∧ ∀ k, q ≠ .top k := by
    intro q hq
    obtain ⟨i, _, rfl | rfl⟩ := links_ge _ _ _ hq <;> simp
  rw [hk, List.append_assoc, List.append_assoc, List.nodup_append, List.nodup_append]
  refine ⟨by decide, ⟨hl, by decide, ?_⟩, ?_⟩
  · intro a ha b hb
    obtain ⟨h1, h2⟩ := hno a ha
    simp only [List.cons_append, List.nil_append, List.mem_cons, List.not_mem_nil, or_false] at hb
    rcases hb with rfl | rfl | rfl | rfl
    · exact h1 _
    · exact h2 _
    · exact h1 _
    · exact h2 _
  · intro a ha b hb he
    subst he
    rw [List.mem_append] at hb
    simp only [List.mem_cons, List.not_mem_nil, or_false] at ha
    rcases hb with hb | hb
    · obtain ⟨h1, h2⟩ := hno _ hb
      rcases ha with rfl | rfl
      · exact h1 _ rfl
      · exact h2 _ rfl
    · rcases ha with rfl | rfl <;> simp at hb

theorem vdsNodes_mem (n : Names) (dims : List Dim) (child : Child) (p : Part) (k : Kind) :
    (Path.interleave k, Node.joined (files n child) (source p k) child.blockSize (Odin.filesShape (size dims) child.blockSize child.processes)) ∈
      vdsNodes n dims child p ∧ (Path.top k, Node.shaped (.interleave k) (dims.map Dim.size)) ∈ vdsNodes n dims child p := by
  cases k <;> simp [vdsNodes, oneVds, source]

theorem files_get (n : Names) (child : Child) (w : Nat) (h : w < child.processes) : (files n child)[w]? = some (n.linked w) := by
  simp [files, h]

theorem createVds_ok (n : Names) (dims : List Dim) (child : Child) (p : Part) (h1 : child.processes * child.blockSize ≠ 0)
    (h2 : (dims.drop 1).any (·.alternate) = false) :
    ∃ vds, createVds n dims child p = .ok vds ∧ (∀ x ∈ vdsNodes n dims child p, Dict.get? vds x.1 = some x.2) ∧
      ∀ q, q ∉ keys (vdsNodes n dims child p) → Dict.get? vds q = none := by
  obtain ⟨vds, e1, e2, e3⟩ := putAll_ok (vdsNodes n dims child p) [] (vdsNodes_nodup n dims child p) (fun _ _ => rfl)
  refine ⟨vds, ?_, e2, fun q hq => by rw [e3 q hq]; rfl⟩
  unfold createVds
  rw [if_neg h1, h2]
  exact e1

theorem createVds_cases (n : Names) (dims : List Dim) (child : Child) (p : Part) (vds : Dict Path Node)
    (h : createVds n dims child p = .ok vds) : child.processes * child.blockSize ≠ 0 ∧ (dims.drop 1).any (·.alternate) = false := by
  unfold createVds at h
  split at h
  · cases h
  · rename_i h1
    split at h
    · cases h
    · rename_i h2
      exact ⟨h1, by simpa using h2⟩

/-! ### the groups -/

theorem axisNodes_keys (k : Kind) (i : Nat) (ds : List Dim) :
    keys (axisNodes k i ds) = (ds.flatMap (·.axes)).map (fun a => .entry (groupOf k) (setName a)) := by
  induction ds generalizing i with
  | nil => rfl
  | cons d ds ih =>
    rw [axisNodes, keys, List.map_append, List.flatMap_cons, List.map_append]
    congr 1
    · rw [List.map_map]; rfl
    · exact ih (i + 1)

theorem mem_axisNodes (k : Kind) (i : Nat) (ds : List Dim) (j : Nat) (d : Dim) (a : Text) (hd : ds[j]? = some d) (ha : a ∈ d.axes) :
    (Path.entry (groupOf k) (setName a), Node.positions a (i + j)) ∈ axisNodes k i ds := by
  induction ds generalizing i j with
  | nil => exact nomatch hd
  | cons d' ds ih =>
    rw [axisNodes, List.mem_append]
    cases j with
    | zero =>
      have : d' = d := by simpa using hd
      subst this
      exact .inl (List.mem_map.2 ⟨a, ha, rfl⟩)
    | succ j =>
      have := ih (i + 1) j (by simpa using hd)
      rw [show i + 1 + j = i + (j + 1) by omega] at this
      exact .inr this

theorem setName_inj (a b : Text) (h : setName a = setName b) : a = b := List.append_cancel_right h

theorem setName_ne (a : Text) (k : Kind) : setName a ≠ nameOf k := by
  intro h
  have := congrArg List.getLast? h
  have e : (setName a).getLast? = some 't' := by
    show (a ++ ['_', 's', 'e', 't']).getLast? = _
    rw [List.getLast?_append]; rfl
  rw [e] at this
  cases k <;> exact absurd this (by decide)

def kindNodes (dims : List Dim) (k : Kind) (x : Node) : List (Path × Node) := (.entry (groupOf k) (nameOf k), x) :: axisNodes k 0 dims

theorem kindNodes_keys (dims : List Dim) (k : Kind) (x : Node) (q : Path) (h : q ∈ keys (kindNodes dims k x)) :
    ∃ name, q = .entry (groupOf k) name := by
  rw [kindNodes, keys, List.map_cons] at h
  rcases List.mem_cons.1 h with h | h
  · exact ⟨_, h⟩
  · have h : q ∈ keys (axisNodes k 0 dims) := h
    rw [axisNodes_keys] at h
    obtain ⟨a, _, rfl⟩ := List.mem_map.1 h
    exact ⟨_, rfl⟩

theorem kindNodes_nodup (dims : List Dim) (k : Kind) (x : Node) : (keys (kindNodes dims k x)).Nodup ↔ (dims.flatMap (·.axes)).Nodup := by
  rw [kindNodes, keys, List.map_cons, List.nodup_cons]
  show (_ ∉ keys (axisNodes k 0 dims) ∧ (keys (axisNodes k 0 dims)).Nodup) ↔ _
  rw [axisNodes_keys]
  constructor
  · rintro ⟨_, h⟩
    rw [List.Nodup, List.pairwise_map] at h
    exact h.imp (fun hne he => hne (by rw [he]))
  · intro h
    refine ⟨?_, ?_⟩
    · intro hm
      obtain ⟨a, _, he⟩ := List.mem_map.1 hm
      simp only [Path.entry.injEq, true_and] at he
      exact setName_ne a k he
    · rw [List.Nodup, List.pairwise_map]
      exact h.imp (fun hne he => hne (setName_inj _ _ (by simpa using he)))

theorem groupOf_inj (k k' : Kind) (h : groupOf k = groupOf k') : k = k' := by
  cases k <;> cases k' <;> first | rfl | exact absurd h (by decide)

/-- one kind: what it needs and what it does -/
theorem addKind_ok (dims : List Dim) (k : Kind) (vds : Dict Path Node) (x : Node) (hx : Dict.get? vds (.top k) = some x)
    (hfree : ∀ name, Dict.get? vds (.entry (groupOf k) name) = none) (hax : (dims.flatMap (·.axes)).Nodup) :
    ∃ vds', addKind dims k vds = .ok vds' ∧ Dict.get? vds' (.entry (groupOf k) (nameOf k)) = some x ∧
      (∀ i d a, dims[i]? = some d → a ∈ d.axes → Dict.get? vds' (.entry (groupOf k) (setName a)) = some (.positions a i)) ∧
      ∀ q, (∀ name, q ≠ .entry (groupOf k) name) → Dict.get? vds' q = Dict.get? vds q := by
  obtain ⟨vds', e1, e2, e3⟩ := putAll_ok (kindNodes dims k x) vds ((kindNodes_nodup dims k x).2 hax) (by
    intro y hy
    obtain ⟨name, he⟩ := kindNodes_keys dims k x y.1 (List.mem_map.2 ⟨y, hy, rfl⟩)
    rw [he]
    exact hfree name)
  refine ⟨vds', ?_, e2 _ (List.mem_cons_self ..), ?_, ?_⟩
  · unfold addKind
    rw [hx]
    exact e1
  · intro i d a hd ha
    have := mem_axisNodes k 0 dims i d a hd ha
    rw [Nat.zero_add] at this
    exact e2 _ (List.mem_cons_of_mem _ this)
  · intro q hq
    apply e3
    intro hm
    obtain ⟨name, he⟩ := kindNodes_keys dims k x q hm
    exact hq name he

theorem addKind_nodup (dims : List Dim) (k : Kind) (vds vds' : Dict Path Node) (h : addKind dims k vds = .ok vds') :
    (dims.flatMap (·.axes)).Nodup := by
  unfold addKind at h
  split at h
  · cases h
  · rename_i x _
    exact (kindNodes_nodup dims k x).1 (putAll_content _ _ _ h).1

theorem complete_of (n : Names) (p : Part) (dims : List Dim) (child : Child) (h1 : child.processes * child.blockSize ≠ 0)
    (h2 : (dims.drop 1).any (·.alternate) = false) (hax : (dims.flatMap (·.axes)).Nodup) :
    ∃ v0 vds, createVds n dims child p = .ok v0 ∧ addNexus dims v0 = .ok vds ∧ Complete n p dims child vds ∧
      (∀ g name, g ≠ none → g ≠ some "sum".toList → g ≠ some "uid".toList → Dict.get? vds (.entry g name) = none) := by
  obtain ⟨v0, c1, c2, c3⟩ := createVds_ok n dims child p h1 h2
  have hfree : ∀ g name, Dict.get? v0 (.entry g name) = none := by
    intro g name
    apply c3
    intro hm
    simp only [keys, vdsNodes, oneVds, List.map_append, List.map_cons, List.map_nil, List.mem_append, List.mem_cons, List.not_mem_nil, or_false] at hm
    rcases hm with ((hm | hm) | hm) | hm
    · rcases hm with hm | hm <;> cases hm
    · obtain ⟨i, _, hm | hm⟩ := links_ge _ _ _ hm <;> cases hm
    · rcases hm with hm | hm <;> cases hm
    · rcases hm with hm | hm <;> cases hm
  have htop := fun k => c2 _ (vdsNodes_mem n dims child p k).2
  have hint := fun k => c2 _ (vdsNodes_mem n dims child p k).1
  obtain ⟨v1, a1, a2, a3, a4⟩ := addKind_ok dims .data v0 _ (htop .data) (hfree _) hax
  have t1 : Dict.get? v1 (.top .sum) = _ := (a4 _ (by simp)).trans (htop .sum)
  obtain ⟨v2, b1, b2, b3, b4⟩ := addKind_ok dims .sum v1 _ t1 (fun name => by
    rw [a4 _ (by intro m h; simp [groupOf] at h)]; exact hfree _ _) hax
  have t2 : Dict.get? v2 (.top .uid) = _ := (b4 _ (by simp)).trans ((a4 _ (by simp)).trans (htop .uid))
  obtain ⟨v3, d1, d2, d3, d4⟩ := addKind_ok dims .uid v2 _ t2 (fun name => by
    rw [b4 _ (by intro m h; simp [groupOf] at h), a4 _ (by intro m h; simp [groupOf] at h)]; exact hfree _ _) hax
  have other : ∀ q, (∀ g name, q ≠ .entry g name) → Dict.get? v3 q = Dict.get? v0 q := by
    intro q hq
    rw [d4 _ (fun m => hq _ m), b4 _ (fun m => hq _ m), a4 _ (fun m => hq _ m)]
  refine ⟨v0, v3, c1, ?_, ⟨?_, ?_, ?_, ?_, ?_, ?_⟩, ?_⟩
  · unfold addNexus
    rw [a1]; simp only [b1]; exact d1
  · intro k
    rw [other _ (by simp)]
    exact hint k
  · intro k
    cases k with
    | data =>
      show Dict.get? v3 (.entry none "data".toList) = _
      rw [d4 _ (by intro m h; simp [groupOf] at h), b4 _ (by intro m h; simp [groupOf] at h)]
      exact a2
    | sum =>
      show Dict.get? v3 (.entry (some "sum".toList) "sum".toList) = _
      rw [d4 _ (by intro m h; simp [groupOf] at h)]
      exact b2
    | uid => exact d2
  · intro w hw
    rw [other _ (by simp)]
    refine c2 (Path.raw (w + 1), Node.link (n.linked w) "/data".toList) ?_
    have hl : (Path.raw (w + 1), Node.link (n.linked w) "/data".toList) ∈ links (files n child) 1 :=
      (mem_links _ _ _).2 ⟨w, n.linked w, files_get n child w hw, Or.inl (by rw [Nat.add_comm])⟩
    simp only [vdsNodes, List.mem_append]
    exact Or.inl (Or.inl (Or.inr hl))
  · intro w hw
    rw [other _ (by simp)]
    refine c2 (Path.uid (w + 1), Node.link (n.linked w) "/uid".toList) ?_
    have hl : (Path.uid (w + 1), Node.link (n.linked w) "/uid".toList) ∈ links (files n child) 1 :=
      (mem_links _ _ _).2 ⟨w, n.linked w, files_get n child w hw, Or.inr (by rw [Nat.add_comm])⟩
    simp only [vdsNodes, List.mem_append]
    exact Or.inl (Or.inl (Or.inr hl))
  · intro k i d a hd ha
    cases k with
    | data =>
      show Dict.get? v3 (.entry none (setName a)) = _
      rw [d4 _ (by intro m h; simp [groupOf] at h), b4 _ (by intro m h; simp [groupOf] at h)]
      exact a3 i d a hd ha
    | sum =>
      show Dict.get? v3 (.entry (some "sum".toList) (setName a)) = _
      rw [d4 _ (by intro m h; simp [groupOf] at h)]
      exact b3 i d a hd ha
    | uid => exact d3 i d a hd ha
  · intro i hi
    have key : ∀ q, (q = Path.raw (i + 1) ∨ q = Path.uid (i + 1)) → Dict.get? v3 q = none := by
      intro q hq
      rw [other q (by rcases hq with rfl | rfl <;> simp)]
      apply c3
      intro hm
      simp only [keys, vdsNodes, oneVds, List.map_append, List.map_cons, List.map_nil, List.mem_append, List.mem_cons, List.not_mem_nil, or_false] at hm
      rcases hm with ((hm | hm) | hm) | hm
      · rcases hq with rfl | rfl <;> simp at hm
      · obtain ⟨j, hj, hm⟩ := links_ge _ _ _ hm
        have hlen : (files n child).length = child.processes := by simp [files]
        rw [hlen] at hj
        rcases hq with rfl | rfl
        · rcases hm with hm | hm
          · have : i + 1 = 1 + j := by simpa using hm
            omega
          · cases hm
        · rcases hm with hm | hm
          · cases hm
          · have : i + 1 = 1 + j := by simpa using hm
            omega
      · rcases hq with rfl | rfl <;> simp at hm
      · rcases hq with rfl | rfl <;> simp at hm
    exact ⟨key _ (Or.inl rfl), key _ (Or.inr rfl)⟩
  · intro g name g1 g2 g3
    rw [d4 _ (by intro m h; cases h; exact g3 rfl), b4 _ (by intro m h; cases h; exact g2 rfl), a4 _ (by intro m h; cases h; exact g1 rfl)]
    exact hfree g name

/-- what `on_configure` needs and gives -/
theorem configure_content (p p' : Part) (n : Names) (child : Child) (dims : List Dim) (c t : Int) (vds : Dict Path Node) (l : List Dataset)
    (h : onConfigure p n child dims c t = .ok (p', vds, l)) :
    Complete n p dims child vds ∧
      (∀ g name, g ≠ none → g ≠ some "sum".toList → g ≠ some "uid".toList → Dict.get? vds (.entry g name) = none) ∧
      p' = { p with doneWhen := c + t, offset := 0 } ∧
      l = infos p.secondary dims ++ rawInfos (dims.length + 2) child.processes := by
  unfold onConfigure at h
  dsimp only at h
  split at h
  · cases h
  · cases hv : createVds n dims child { p with doneWhen := c + t, offset := 0 } with
    | error e => rw [hv] at h; cases h
    | ok v0 =>
      rw [hv] at h
      dsimp only at h
      cases hx : addNexus dims v0 with
      | error e => rw [hx] at h; cases h
      | ok v1 =>
        rw [hx] at h
        simp only [Except.ok.injEq, Prod.mk.injEq] at h
        obtain ⟨rfl, rfl, rfl⟩ := h
        obtain ⟨h1, h2⟩ := createVds_cases _ _ _ _ _ hv
        have hax : (dims.flatMap (·.axes)).Nodup := by
          unfold addNexus at hx
          cases hk : addKind dims .data v0 with
          | error e => rw [hk] at hx; cases hx
          | ok w => exact addKind_nodup dims .data v0 w hk
        obtain ⟨w0, w1, e1, e2, e3, e4⟩ := complete_of n { p with doneWhen := c + t, offset := 0 } dims child h1 h2 hax
        rw [hv] at e1
        cases e1
        rw [hx] at e2
        cases e2
        refine ⟨⟨?_, e3.shown, e3.raw, e3.uid, e3.axis, e3.nothing⟩, e4, rfl, rfl⟩
        intro k
        rw [e3.joined k]
        cases k <;> rfl

/-- C103: the file that `configure` makes is complete: frames, sums and unique ids of all the writers' files, in the shape of the scan, and
the positions of every axis beside each of them. -/
theorem file_complete (p p' : Part) (n : Names) (child : Child) (dims : List Dim) (c t : Int) (vds : Dict Path Node) (l : List Dataset)
    (h : onConfigure p n child dims c t = .ok (p', vds, l)) : Complete n p dims child vds :=
  (configure_content p p' n child dims c t vds l h).1

/-- C103: every dataset announced, and where it says its unique ids are, is in the file, except those of a writer that is not there. -/
theorem announced_there_partial (p p' : Part) (n : Names) (child : Child) (dims : List Dim) (c t : Int) (vds : Dict Path Node)
    (l : List Dataset) (h : onConfigure p n child dims c t = .ok (p', vds, l)) (hs : p.secondary = "sum".toList) :
    ∀ i ∈ l, i.path ≠ .raw (child.processes + 1) → i.path ≠ .uid (child.processes + 1) →
      (∃ x, Dict.get? vds i.path = some x) ∧ (∀ u, i.uniqueid = some u → ∃ x, Dict.get? vds u = some x) ∧
      (i.rank = dims.length + 2 ∨ ∃ a, i.path = .entry none (setName a) ∧ i.rank = 1) := by
  obtain ⟨hc, -, -, rfl⟩ := configure_content p p' n child dims c t vds l h
  intro i hi n1 n2
  have hu : ∃ x, Dict.get? vds (.entry (some "uid".toList) "uid".toList) = some x := ⟨_, hc.shown .uid⟩
  rw [hs] at hi
  simp only [infos, rawInfos, List.mem_append, List.mem_cons, List.not_mem_nil, or_false, List.mem_map, List.mem_range] at hi
  rcases hi with ((rfl | rfl) | ⟨a, ha, rfl⟩) | ⟨k, hk, rfl⟩ | ⟨k, hk, rfl⟩
  · exact ⟨⟨_, hc.shown .data⟩, (fun u e => by cases e; exact hu), .inl rfl⟩
  · exact ⟨⟨_, hc.shown .sum⟩, (fun u e => by cases e; exact hu), .inl rfl⟩
  · obtain ⟨d, hd, had⟩ := List.mem_flatMap.1 ha
    obtain ⟨j, hj, rfl⟩ := List.mem_iff_getElem.1 hd
    exact ⟨⟨_, hc.axis .data j _ a (List.getElem?_eq_getElem hj) had⟩, (fun u e => by cases e), .inr ⟨a, rfl, rfl⟩⟩
  · have : k ≠ child.processes := fun e => n1 (by rw [e])
    exact ⟨⟨_, hc.raw k (by omega)⟩, (fun u e => by cases e), .inl rfl⟩
  · have : k ≠ child.processes := fun e => n2 (by rw [e])
    exact ⟨⟨_, hc.uid k (by omega)⟩, (fun u e => by cases e), .inl rfl⟩

/-- C103: `configure` succeeds for any positive number of writers and size of a block, and any dimensions of which only the first
alternates, if the file has an extension. -/
theorem configure_succeeds (p : Part) (n : Names) (child : Child) (dims : List Dim) (c t : Int) (hb : 0 < child.blockSize)
    (hw : 0 < child.processes) (halt : ∀ d ∈ dims.drop 1, d.alternate = false) (hax : (dims.flatMap (·.axes)).Nodup) (he : '.' ∈ n.vds) :
    ∃ r, onConfigure p n child dims c t = .ok r := by
  have h2 : (dims.drop 1).any (·.alternate) = false := by
    rw [Bool.eq_false_iff]
    intro h
    obtain ⟨d, hd, h⟩ := List.any_eq_true.1 h
    rw [halt d hd] at h
    cases h
  have h1 : child.processes * child.blockSize ≠ 0 := Nat.ne_of_gt (Nat.mul_pos hw hb)
  obtain ⟨v0, v1, e1, e2, -, -⟩ := complete_of n { p with doneWhen := c + t, offset := 0 } dims child h1 h2 hax
  refine ⟨({ p with doneWhen := c + t, offset := 0 }, v1, infos p.secondary dims ++ rawInfos (dims.length + 2) child.processes), ?_⟩
  unfold onConfigure
  dsimp only
  rw [if_neg (fun hh => hh he), e1]
  simp only [e2]

/-- C103: a scan in which another dimension than the first alternates is refused. -/
theorem snake_refused (p : Part) (n : Names) (child : Child) (dims : List Dim) (c t : Int) (hb : 0 < child.blockSize)
    (hw : 0 < child.processes) (d : Dim) (hd : d ∈ dims.drop 1) (ha : d.alternate = true) (he : '.' ∈ n.vds) :
    onConfigure p n child dims c t = .error .badValue := by
  unfold onConfigure
  dsimp only
  rw [if_neg (fun hh => hh he)]
  unfold createVds
  rw [if_neg (Nat.ne_of_gt (Nat.mul_pos hw hb)), if_pos (List.any_eq_true.2 ⟨d, hd, ha⟩)]

/-! ### names -/

theorem split_last (d x : Text) (hx : Plain x) (hd : d = [] ∨ d.getLast? = some '/') : lastPart (d ++ x) = (d, x) := by
  have hx' : ∀ c ∈ x.reverse, decide (c ≠ '/') = true := by
    intro c hc
    rw [List.mem_reverse] at hc
    exact decide_eq_true (fun e => hx (e ▸ hc))
  have hr : (d ++ x).reverse = x.reverse ++ d.reverse := List.reverse_append
  have h1 : (x.reverse ++ d.reverse).takeWhile (· ≠ '/') = x.reverse := by
    rw [List.takeWhile_append_of_pos hx']
    rcases hd with rfl | hd
    · simp
    · rw [← List.head?_reverse] at hd
      cases hdr : d.reverse with
      | nil => simp
      | cons c cs =>
        rw [hdr] at hd
        simp only [List.head?_cons, Option.some.injEq] at hd
        subst hd
        simp [List.takeWhile_cons]
  have h2 : (x.reverse ++ d.reverse).dropWhile (· ≠ '/') = d.reverse := by
    rw [List.dropWhile_append_of_pos hx']
    rcases hd with rfl | hd
    · simp
    · rw [← List.head?_reverse] at hd
      cases hdr : d.reverse with
      | nil => simp
      | cons c cs =>
        rw [hdr] at hd
        simp only [List.head?_cons, Option.some.injEq] at hd
        subst hd
        simp [List.dropWhile_cons]
  unfold lastPart
  rw [hr, h1, h2, List.reverse_reverse, List.reverse_reverse]

theorem plain_last (x : Text) (hx : Plain x) : lastPart x = ([], x) := split_last [] x hx (Or.inl rfl)

theorem plain_append (a b : Text) (ha : Plain a) (hb : Plain b) : Plain (a ++ b) := fun h => (List.mem_append.1 h).elim ha hb

theorem replace_plain (f : Text) (hf : Plain f) : ∀ t : Text, Plain t → Plain (replace f t) := by
  intro t
  induction t using replace.induct with
  | case1 rest ih =>
    intro h
    rw [replace]
    exact plain_append _ _ hf (ih (fun hm => h (List.mem_cons_of_mem _ (List.mem_cons_of_mem _ hm))))
  | case2 c rest hne ih =>
    intro h
    rw [replace]
    · intro hm
      rcases List.mem_cons.1 hm with hm | hm
      · exact h (hm ▸ List.mem_cons_self)
      · exact ih (fun hm => h (List.mem_cons_of_mem _ hm)) hm
    · exact hne
  | case3 => intro h; exact h

/-- the last "." -/
theorem root_cases (x : Text) (hx : Plain x) : (root x = x ∧ ('.' ∉ x ∨ ∀ i, x[i]? = some '.' → i < (root x).length)) ∨
    ∃ e, x = root x ++ '.' :: e ∧ '.' ∉ e := by
  have hs := List.takeWhile_append_dropWhile (p := fun c => decide (c ≠ '.')) (l := x.reverse)
  have he : '.' ∉ x.reverse.takeWhile (fun c => decide (c ≠ '.')) := by
    intro hm
    have := List.all_eq_true.1 (List.all_takeWhile (l := x.reverse) (p := fun c => decide (c ≠ '.'))) _ hm
    simp at this
  have key : root x = match x.reverse.dropWhile (fun c => decide (c ≠ '.')) with
      | [] => x
      | _ :: stem => if stem.any (· ≠ '.') then [] ++ stem.reverse else x := by
    unfold root
    rw [plain_last x hx]
    rfl
  cases hd : x.reverse.dropWhile (fun c => decide (c ≠ '.')) with
  | nil =>
    rw [hd] at hs key
    rw [List.append_nil] at hs
    rw [hs] at he
    exact Or.inl ⟨key, Or.inl (fun hm => he (List.mem_reverse.2 hm))⟩
  | cons c stem =>
    have hc : c = '.' := by
      have := List.head?_dropWhile_not (fun c => decide (c ≠ '.')) x.reverse
      rw [hd] at this
      simpa using this
    subst hc
    rw [hd] at hs key
    dsimp only at key
    have hx2 : x = stem.reverse ++ '.' :: (x.reverse.takeWhile (fun c => decide (c ≠ '.'))).reverse := by
      have := congrArg List.reverse hs
      rw [List.reverse_append, List.reverse_reverse, List.reverse_cons, List.append_assoc] at this
      exact this.symm
    by_cases ha : stem.any (· ≠ '.') = true
    · rw [if_pos ha, List.nil_append] at key
      right
      exact ⟨_, by rw [key]; exact hx2, fun hm => he (List.mem_reverse.1 hm)⟩
    · rw [if_neg ha] at key
      left
      refine ⟨key, Or.inr (fun i hi => ?_)⟩
      rw [key]
      rcases Nat.lt_or_ge i x.length with h | h
      · exact h
      · rw [List.getElem?_eq_none h] at hi; cases hi

theorem root_plain (x : Text) (hx : Plain x) : Plain (root x) := by
  rcases root_cases x hx with ⟨h, -⟩ | ⟨e, h, -⟩
  · rw [h]; exact hx
  · intro hm
    exact hx (by rw [h]; exact List.mem_append_left _ hm)

theorem drop_none {α : Type} (p : α → Bool) : ∀ l : List α, l.dropWhile p = [] ↔ ∀ x ∈ l, p x = true := by
  intro l
  induction l with
  | nil => simp
  | cons a l ih =>
    rw [List.dropWhile_cons]
    cases h : p a with
    | true => simp [ih, h]
    | false => simp [h]

theorem rstrip_slash (d : Text) : rstrip (d ++ ['/']) = rstrip d := by
  unfold rstrip
  rw [List.reverse_append]
  simp [List.dropWhile_cons]

theorem rstrip_last (d : Text) : (rstrip d).getLast? ≠ some '/' := by
  unfold rstrip
  rw [List.getLast?_reverse]
  intro h
  have := List.head?_dropWhile_not (fun c => decide (c = '/')) d.reverse
  rw [h] at this
  simp at this

theorem rstrip_ne_nil (d : Text) (c : Char) (hc : c ∈ d) (hne : c ≠ '/') : rstrip d ≠ [] := by
  unfold rstrip
  intro h
  rw [List.reverse_eq_nil_iff, drop_none] at h
  have := h c (List.mem_reverse.2 hc)
  simp [hne] at this

theorem raw_plain (n : Names) (ht : Plain n.template) (hf : Plain n.format) : Plain n.raw :=
  root_plain _ (replace_plain _ (plain_append _ _ hf (by unfold Plain; decide)) _ ht)

theorem head_plain (x : Text) (hx : Plain x) : x.head? ≠ some '/' := by
  intro h
  exact hx (List.mem_of_mem_head? (by rw [h]; rfl))

theorem pad6_plain (k : Nat) : Plain (pad6 k) := by
  unfold pad6
  refine plain_append _ _ ?_ ?_
  · intro h
    have := List.eq_of_mem_replicate h
    exact absurd this (by decide)
  · intro h
    have := Nat.isDigit_of_mem_toDigits (b := 10) (by decide) (by decide) h
    exact absurd this (by decide)

theorem rawName_plain (n : Names) (ht : Plain n.template) (hf : Plain n.format) (i : Nat) :
    Plain (n.raw ++ '_' :: pad6 (i + 1) ++ ".h5".toList) := by
  refine plain_append _ _ (plain_append _ _ (raw_plain n ht hf) ?_) (by unfold Plain; decide)
  exact plain_append ['_'] _ (by unfold Plain; decide) (pad6_plain _)

/-- C103: with a directory given and neither template nor format leading to another, the file made looks for the frames where the writer
writes them. -/
theorem links_right_partial (n : Names) (ht : Plain n.template) (hf : Plain n.format) (hd : (∃ c ∈ n.fileDir, c ≠ '/') ∨ n.fileDir = ['/'])
    (i : Nat) : n.linked i = n.written i := by
  have hv : Plain n.vdsName := replace_plain _ hf _ ht
  have hr := rawName_plain n ht hf i
  -- the directory with its "/"
  have hD : ∃ D, n.vds = D ++ n.vdsName ∧ D.getLast? = some '/' ∧ rstrip D = rstrip n.fileDir ∧ (n.fileDir = ['/'] → D = ['/']) := by
    unfold Names.vds join
    rw [if_neg (head_plain _ hv)]
    by_cases hl : n.fileDir.getLast? = some '/'
    · rw [if_pos (Or.inr hl)]
      exact ⟨_, rfl, hl, rfl, fun h => h⟩
    · have hne : n.fileDir ≠ [] := by
        rcases hd with ⟨c, hc, _⟩ | hd
        · exact List.ne_nil_of_mem hc
        · rw [hd]; simp
      rw [if_neg (fun h => h.elim hne hl)]
      refine ⟨n.fileDir ++ ['/'], by simp, by simp, rstrip_slash _, fun h => ?_⟩
      rw [h] at hl
      exact absurd rfl hl
  obtain ⟨D, e1, e2, e3, e4⟩ := hD
  have hs : lastPart n.vds = (D, n.vdsName) := by rw [e1]; exact split_last D _ hv (Or.inr e2)
  unfold Names.linked Names.written Names.filePath split
  rw [hs]
  dsimp only
  rcases hd with ⟨c, hc, hne⟩ | hd
  · have hall : D.all (fun c => decide (c = '/')) = false := by
      rw [Bool.eq_false_iff]
      intro h
      apply rstrip_ne_nil n.fileDir c hc hne
      rw [← e3]
      unfold rstrip
      rw [List.reverse_eq_nil_iff, drop_none]
      intro x hx
      exact List.all_eq_true.1 h x (List.mem_reverse.1 hx)
    rw [hall, e3]
    unfold join
    rw [if_neg (head_plain _ hr), if_neg]
    · simp
    · rintro (h | h)
      · exact rstrip_ne_nil n.fileDir c hc hne (by simpa using h)
      · exact rstrip_last n.fileDir (by simpa using h)
  · rw [e4 hd, hd]
    unfold join
    rw [if_neg (head_plain _ hr)]
    rfl

theorem pad6_value (k : Nat) : Nat.ofDigitChars 10 (pad6 k) 0 = k := by
  have h0 : ∀ m, (List.replicate m '0').foldl (fun n c => 10 * n + (c.toNat - '0'.toNat)) 0 = 0 := by
    intro m
    induction m with
    | zero => rfl
    | succ m ih => exact ih
  have := Nat.ofDigitChars_ten_toDigits (n := k)
  rw [Nat.ofDigitChars] at this ⊢
  unfold pad6
  rw [List.foldl_append, h0]
  exact this

theorem pad6_inj (a b : Nat) (h : pad6 a = pad6 b) : a = b := by
  rw [← pad6_value a, ← pad6_value b, h]

theorem pad6_length (k : Nat) (hk : k < 10 ^ 6) : (pad6 k).length = 6 := by
  have := (Nat.length_toDigits_le_iff (b := 10) (n := k) (k := 6) (by decide) (by decide)).2 hk
  simp only [pad6, List.length_append, List.length_replicate]
  omega

theorem pad6_length_ge (k : Nat) : 6 ≤ (pad6 k).length := by
  simp only [pad6, List.length_append, List.length_replicate]
  omega

/-- C103: each writer has its own file. -/
theorem own_file (n : Names) (i j : Nat) (h : n.written i = n.written j) : i = j := by
  unfold Names.written at h
  have h := List.append_cancel_right h
  have h := List.append_cancel_left h
  simp only [List.cons.injEq, true_and] at h
  have := pad6_inj _ _ h
  omega

theorem dot_moves (f : Text) : ∀ (t : Text) (i : Nat), (replace f t)[i]? = some '.' →
    ∃ j, i ≤ j ∧ (replace (f ++ "_raw_data".toList) t)[j]? = some '.' := by
  intro t
  induction t using replace.induct with
  | case1 rest ih =>
    intro i h
    rw [replace] at h ⊢
    rcases Nat.lt_or_ge i f.length with hi | hi
    · rw [List.getElem?_append_left hi] at h
      refine ⟨i, Nat.le_refl _, ?_⟩
      rw [List.append_assoc, List.getElem?_append_left hi]
      exact h
    · rw [List.getElem?_append_right hi] at h
      obtain ⟨j, h1, h2⟩ := ih _ h
      refine ⟨(f ++ "_raw_data".toList).length + j, ?_, ?_⟩
      · rw [List.length_append]; omega
      · rw [List.getElem?_append_right (by omega), Nat.add_sub_cancel_left]
        exact h2
  | case2 c rest hne ih =>
    intro i h
    rw [replace] at h ⊢
    · cases i with
      | zero => exact ⟨0, Nat.le_refl _, h⟩
      | succ i =>
        obtain ⟨j, h1, h2⟩ := ih i (by simpa using h)
        exact ⟨j + 1, by omega, by simpa using h2⟩
    · exact hne
    · exact hne
  | case3 => intro i h; cases h

/-- C103: no writer writes to the file that leads to all of them. -/
theorem not_the_vds (n : Names) (ht : Plain n.template) (hf : Plain n.format) (i : Nat) :
    n.vdsName ≠ n.raw ++ '_' :: pad6 (i + 1) ++ ".h5".toList := by
  intro h
  have hp : Plain (replace (n.format ++ "_raw_data".toList) n.template) := replace_plain _ (plain_append _ _ hf (by unfold Plain; decide)) _ ht
  have hlen := congrArg List.length h
  simp only [List.length_append, List.length_cons] at hlen
  have hge := pad6_length_ge (i + 1)
  have h3 : ".h5".toList.length = 3 := rfl
  rw [h3] at hlen
  have hdot : n.vdsName[n.vdsName.length - 3]? = some '.' := by
    rw [hlen, h, List.getElem?_append_right (by simp)]
    have : n.raw.length + ((pad6 (i + 1)).length + 1) + 3 - 3 - (n.raw ++ '_' :: pad6 (i + 1)).length = 0 := by simp
    rw [this]; rfl
  obtain ⟨j, h1, h2⟩ := dot_moves n.format n.template _ hdot
  have hj : j ≤ n.raw.length := by
    unfold Names.raw
    rcases root_cases _ hp with ⟨e, h | h⟩ | ⟨e, he, hno⟩
    · exact absurd (List.mem_of_getElem? h2) h
    · exact Nat.le_of_lt (h j h2)
    · rcases Nat.lt_or_ge (root (replace (n.format ++ "_raw_data".toList) n.template)).length j with hlt | hle
      · rw [he, List.getElem?_append_right (by omega)] at h2
        obtain ⟨m, hm⟩ : ∃ m, j - (root (replace (n.format ++ "_raw_data".toList) n.template)).length = m + 1 :=
          ⟨j - (root (replace (n.format ++ "_raw_data".toList) n.template)).length - 1, by omega⟩
        rw [hm] at h2
        exact absurd (List.mem_of_getElem? (by simpa using h2)) hno
      · exact hle
  omega

theorem replace_no (f : Text) : ∀ t : Text, '%' ∉ t → replace f t = t := by
  intro t
  induction t using replace.induct with
  | case1 rest ih => intro h; exact absurd List.mem_cons_self h
  | case2 c rest hne ih =>
    intro h
    rw [replace]
    · rw [ih (fun hm => h (List.mem_cons_of_mem _ hm))]
    · exact hne
  | case3 => intro _; rfl

theorem replace_one (f pre post : Text) (h1 : '%' ∉ pre) (h2 : '%' ∉ post) : replace f (pre ++ '%' :: 's' :: post) = pre ++ f ++ post := by
  induction pre with
  | nil =>
    rw [List.nil_append, List.nil_append, replace, replace_no f post h2]
  | cons c pre ih =>
    have hc : c ≠ '%' := fun e => h1 (e ▸ List.mem_cons_self)
    rw [List.cons_append, replace]
    · rw [ih (fun hm => h1 (List.mem_cons_of_mem _ hm))]; rfl
    · intro rest e _; exact hc e

/-- the name of the raw files for a template that has the format once and an extension after it -/
theorem raw_is (n : Names) (pre st ext : Text) (hn : n.template = pre ++ '%' :: 's' :: (st ++ '.' :: ext)) (h1 : '%' ∉ pre) (h2 : '%' ∉ st)
    (h3 : '%' ∉ ext) (he : '.' ∉ ext) (hp : Plain n.template) (hf : Plain n.format) :
    n.raw = pre ++ n.format ++ "_raw_data".toList ++ st := by
  have hpl : Plain (replace (n.format ++ "_raw_data".toList) n.template) := replace_plain _ (plain_append _ _ hf (by unfold Plain; decide)) _ hp
  have e : replace (n.format ++ "_raw_data".toList) n.template = (pre ++ n.format ++ "_raw_data".toList ++ st) ++ '.' :: ext := by
    rw [hn, replace_one]
    · simp
    · exact h1
    · intro hm
      rcases List.mem_append.1 hm with hm | hm
      · exact h2 hm
      · rcases List.mem_cons.1 hm with hm | hm
        · exact absurd hm (by decide)
        · exact h3 hm
  unfold Names.raw root
  rw [plain_last _ hpl]
  dsimp only
  rw [e, List.reverse_append, List.reverse_cons, List.append_assoc]
  have hd : (ext.reverse ++ (['.'] ++ (pre ++ n.format ++ "_raw_data".toList ++ st).reverse)).dropWhile (fun c => decide (c ≠ '.')) =
      '.' :: (pre ++ n.format ++ "_raw_data".toList ++ st).reverse := by
    rw [List.dropWhile_append_of_pos]
    · simp [List.dropWhile_cons]
    · intro c hc
      exact decide_eq_true (fun e => he (by rw [← e]; exact List.mem_reverse.1 hc))
  rw [hd]
  dsimp only
  rw [if_pos]
  · simp
  · rw [List.any_eq_true]
    exact ⟨'_', by simp, by decide⟩

/-- C103: detectors with different formats write to different files, for a template that has the format once and an extension after it. -/
theorem formats_apart_partial (n n' : Names) (pre st ext : Text) (hn : n.template = pre ++ '%' :: 's' :: (st ++ '.' :: ext))
    (hn' : n'.template = n.template) (hd : n'.fileDir = n.fileDir) (h1 : '%' ∉ pre) (h2 : '%' ∉ st)
    (h3 : '%' ∉ ext) (he : '.' ∉ ext) (hp : Plain n.template) (hf : Plain n.format) (hf' : Plain n'.format) (i j : Nat)
    (hi : i < 999999) (hj : j < 999999) (h : n.written i = n'.written j) : n.format = n'.format ∧ i = j := by
  have r1 := raw_is n pre st ext hn h1 h2 h3 he hp hf
  have r2 := raw_is n' pre st ext (hn'.trans hn) h1 h2 h3 he (hn' ▸ hp) hf'
  have l1 := pad6_length (i + 1) (by omega)
  have l2 := pad6_length (j + 1) (by omega)
  unfold Names.written Names.filePath at h
  rw [hd] at h
  have h := List.append_cancel_right h
  rw [List.append_assoc, List.append_assoc (bs := n'.raw)] at h
  have h := List.append_cancel_left h
  have hl := congrArg List.length h
  simp only [List.length_append, List.length_cons, l1, l2] at hl
  obtain ⟨ha, hb⟩ := List.append_inj h (by omega)
  simp only [List.cons.injEq, true_and] at hb
  have hij := pad6_inj _ _ hb
  refine ⟨?_, by omega⟩
  rw [r1, r2] at ha
  have ha := List.append_cancel_right (List.append_cancel_right ha)
  exact List.append_cancel_left ha

/-! ### the frames -/

/-- the part after runs that were followed by others of `ws` steps -/
def windows (p : Part) : List Int → Part
  | [] => p
  | w :: ws => windows (onPostRunArmed p w) ws

/-- C103: each run is over exactly when as many frames were captured as the steps of all runs so far, and what is reported on the way
is how many were captured. -/
theorem runs_count (p p' : Part) (n : Names) (child : Child) (dims : List Dim) (t : Int) (ws : List Int)
    (vds : Dict Path Node) (l : List Dataset) (h : onConfigure p n child dims 0 t = .ok (p', vds, l)) (captured : Int) :
    (runOver (windows p' ws) captured = true ↔ captured = t + ws.sum) ∧ progress (windows p' ws) captured = captured := by
  obtain ⟨-, -, rfl, -⟩ := configure_content p p' n child dims 0 t vds l h
  have key : ∀ (ws : List Int) (q : Part), (windows q ws).doneWhen = q.doneWhen + ws.sum ∧ (windows q ws).offset = q.offset := by
    intro ws
    induction ws with
    | nil => intro q; simp [windows]
    | cons w ws ih =>
      intro q
      obtain ⟨h1, h2⟩ := ih (onPostRunArmed q w)
      refine ⟨?_, h2⟩
      rw [windows, h1, List.sum_cons]
      show q.doneWhen + w + ws.sum = _
      omega
  obtain ⟨h1, h2⟩ := key ws { p with doneWhen := 0 + t, offset := 0 }
  constructor
  · unfold runOver
    rw [h1, decide_eq_true_eq]
    show captured = 0 + t + ws.sum ↔ _
    omega
  · unfold progress
    rw [h2]
    show captured + 0 = captured
    omega

/-! ### cases -/

def names : Names := { fileDir := "/tmp/scans/".toList }
def dims : List Dim := [⟨["y".toList], 3, true⟩, ⟨["x".toList], 4, false⟩]

example : ∃ r, onConfigure {} names ⟨2, 3⟩ dims 0 12 = .ok r :=
  configure_succeeds _ _ _ _ _ _ (by decide) (by decide) (by decide) (by decide) (by decide +kernel)

example : names.vds = "/tmp/scans/odin.h5".toList ∧ names.linked 0 = "/tmp/scans/odin_raw_data_000001.h5".toList ∧
    names.written 11 = "/tmp/scans/odin_raw_data_000012.h5".toList := by decide +kernel

example : (∃ c ∈ names.fileDir, c ≠ '/') ∧ Plain names.template ∧ Plain names.format ∧
    names.template = [] ++ '%' :: 's' :: ([] ++ '.' :: "h5".toList) := ⟨⟨'t', by decide, by decide⟩, by unfold Plain; decide +kernel, by unfold Plain; decide +kernel, rfl⟩

/-! ### where it goes wrong -/

/-- C103 does not hold of the raw datasets: those of one writer more than there are are announced, and are not in the file. -/
theorem one_writer_too_many (p p' : Part) (n : Names) (child : Child) (dims : List Dim) (c t : Int) (vds : Dict Path Node) (l : List Dataset)
    (h : onConfigure p n child dims c t = .ok (p', vds, l)) :
    (∃ i ∈ l, i.path = .raw (child.processes + 1) ∧ Dict.get? vds i.path = none) ∧
    (∃ i ∈ l, i.path = .uid (child.processes + 1) ∧ Dict.get? vds i.path = none) := by
  obtain ⟨hc, -, -, rfl⟩ := configure_content p p' n child dims c t vds l h
  obtain ⟨h1, h2⟩ := hc.nothing child.processes (Nat.le_refl _)
  refine ⟨⟨⟨.raw (child.processes + 1), dims.length + 2, none⟩, ?_, rfl, h1⟩, ⟨⟨.uid (child.processes + 1), dims.length + 2, none⟩, ?_, rfl, h2⟩⟩
  · simp [rawInfos]
  · simp [rawInfos]

/-- C103 does not hold of a part with another secondary dataset than the sum: it is announced, and is not in the file. -/
theorem other_secondary_not_there (p p' : Part) (n : Names) (child : Child) (dims : List Dim) (c t : Int) (vds : Dict Path Node)
    (l : List Dataset) (h : onConfigure p n child dims c t = .ok (p', vds, l)) (h1 : p.secondary ≠ "sum".toList)
    (h2 : p.secondary ≠ "uid".toList) : ∃ i ∈ l, i.path = .entry (some p.secondary) p.secondary ∧ Dict.get? vds i.path = none := by
  obtain ⟨-, hno, -, rfl⟩ := configure_content p p' n child dims c t vds l h
  refine ⟨⟨.entry (some p.secondary) p.secondary, dims.length + 2, some (.entry (some "uid".toList) "uid".toList)⟩, ?_, rfl, ?_⟩
  · simp [infos]
  · exact hno _ _ (by simp) (by simpa using h1) (by simpa using h2)

/-- C103 does not hold of a part with another name for the unique ids: the raw unique ids are still looked for under "/uid". -/
theorem uid_links_fixed (p p' : Part) (n : Names) (child : Child) (dims : List Dim) (c t : Int) (vds : Dict Path Node) (l : List Dataset)
    (h : onConfigure { p with uidName := "UID".toList } n child dims c t = .ok (p', vds, l)) (w : Nat) (hw : w < child.processes) :
    Dict.get? vds (.uid (w + 1)) = some (.link (n.linked w) "/uid".toList) ∧
    ∃ fs b s, Dict.get? vds (.interleave .uid) = some (.joined fs "UID".toList b s) := by
  obtain ⟨hc, -⟩ := configure_content _ p' n child dims c t vds l h
  exact ⟨hc.uid w hw, _, _, _, hc.joined .uid⟩

/-- C103 does not hold of a template with a directory in it: the frames are looked for in a directory of that name in it. -/
theorem directory_twice :
    ({ names with template := "sub/%s.h5".toList } : Names).linked 0 = "/tmp/scans/sub/sub/odin_raw_data_000001.h5".toList ∧
    ({ names with template := "sub/%s.h5".toList } : Names).written 0 = "/tmp/scans/sub/odin_raw_data_000001.h5".toList := by
  decide +kernel

/-- C103 does not hold of formats with a "." in them and a template without: the frames of both go to the same file. -/
theorem dotted_formats_share :
    ({ names with template := "%s".toList, format := "a.x".toList } : Names).written 0 =
      ({ names with template := "%s".toList, format := "a.y".toList } : Names).written 0 ∧
    ({ names with template := "%s".toList, format := "a.x".toList } : Names).vds ≠
      ({ names with template := "%s".toList, format := "a.y".toList } : Names).vds := by
  decide +kernel

/-- C103 does not hold of a scan that is to be paused or to go back: it always fails. -/
theorem pause_refused (p : Part) : onPause p = .error .notImplemented := rfl

end Verif.Props.OdinFile
