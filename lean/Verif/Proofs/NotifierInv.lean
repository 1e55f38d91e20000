import Verif.Proofs.Notifier
set_option linter.unusedSectionVars false
set_option linter.unusedVariables false
namespace Verif.Notifier
open Verif Spec

def Kind.container : Kind → Bool
  | .leaf _ => false
  | _ => true

/-- Only containers have parts. -/
def TreeWF (t : Tree) : Prop := ∀ x a, t (x ++ [a]) ≠ none → ∃ k, t x = some k ∧ k.container

theorem TreeWF.none_below {t : Tree} (h : TreeWF t) {x : Path} (hx : t x = none) (y : Path) :
    t (x ++ y) = none := by
  induction y generalizing x with
  | nil => simpa using hx
  | cons a y ih =>
    have h1 : t (x ++ [a]) = none := by
      cases hc : t (x ++ [a]) with
      | none => rfl
      | some k =>
        obtain ⟨k', hk, _⟩ := h x a (by rw [hc]; simp)
        rw [hx] at hk; cases hk
    simpa [List.append_assoc] using ih h1

theorem TreeWF.sub_absent {t : Tree} (h : TreeWF t) {x : Path} (hx : t x = none) : t.sub x = Tree.absent := by
  funext y; exact h.none_below hx y

theorem TreeWF.setAt {t v : Tree} {p : Path} (ht : TreeWF t) (hv : TreeWF v)
    (hp : hasParent t p = true) : TreeWF (t.setAt p v) := by
  intro x a hx
  by_cases h : p <+: x
  · obtain ⟨y, rfl⟩ := h
    rw [List.append_assoc, setAt_append] at hx
    rw [setAt_append]
    exact hv y a hx
  · by_cases h2 : p <+: x ++ [a]
    · -- p = x ++ [a]
      have hpx : p = x ++ [a] := by
        rcases List.prefix_concat_iff.1 h2 with h3 | h3
        · exact h3
        · exact absurd h3 h
      subst hpx
      rw [setAt_other _ _ h]
      unfold hasParent at hp
      split at hp
      · rename_i h; simp at h
      · simp only [List.dropLast_concat, decide_eq_true_eq] at hp
        exact ⟨.model, hp, rfl⟩
    · rw [setAt_other _ _ h2] at hx
      rw [setAt_other _ _ h]
      exact ht x a hx

theorem TreeWF.absent : TreeWF Tree.absent := by intro x a h; exact absurd rfl h

/-- No reference through a dict on the way to `q`. -/
def NoDict (t : Tree) (q : Path) : Prop := ∀ x a, (x ++ [a]) <+: q → t x ≠ some .dict

theorem walkData_live {cur : Tree} (hw : TreeWF cur) (r : Path) : ∀ (p : Path), NoDict cur (p ++ r) →
    cur p ≠ none → walkData cur p r (some .live) = if cur (p ++ r) = none then none else some .live := by
  induction r with
  | nil => intro p _ hp; simp [walkData, hp]
  | cons a r ih =>
    intro p hd hp
    have hd' : NoDict cur (p ++ [a] ++ r) := by simpa [List.append_assoc] using hd
    rw [walkData]
    cases hk : cur p with
    | none => exact absurd hk hp
    | some k =>
      have hnd : k ≠ .dict := by
        intro h; exact hd p a ⟨r, by simp⟩ (by rw [hk, h])
      by_cases hc : cur (p ++ [a]) = none
      · have h1 : childData cur p a (some .live) = none := by simp [childData, hk, hc]
        have h2 : ∀ (r p : Path), walkData cur p r none = none := by
          intro r; induction r with
          | nil => intro p; rfl
          | cons b r ih => intro p; simp [walkData, childData, ih]
        have h3 : cur (p ++ (a :: r)) = none := by
          have := hw.none_below hc r
          simpa [List.append_assoc] using this
        rw [h1, h2, h3]; simp
      · have hka : k.hasAttrs = true := by
          obtain ⟨k', hk', hct⟩ := hw p a hc
          rw [hk] at hk'; cases hk'
          cases k <;> simp_all [Kind.hasAttrs, Kind.container]
        have h1 : childData cur p a (some .live) = some .live := by simp [childData, hk, hka, hc]
        rw [h1, ih (p ++ [a]) hd' hc]
        simp [List.append_assoc]

theorem walkData_none (cur : Tree) : ∀ (r p : Path), walkData cur p r none = none := by
  intro r; induction r with
  | nil => intro p; rfl
  | cons b r ih => intro p; simp [walkData, childData, ih]

/-! ### detach -/

theorem detach_mk (cur : Tree) (p at_ : Path) (ds us data cs) :
    (Node.mk ds us data cs).detach cur p at_ =
      .mk ds us (detachData cur p at_ data) (detachChildren cur p at_ cs) := by
  rw [Node.detach]

theorem get?_detachChildren (cur : Tree) (p at_ : Path) (cs : List (String × Node)) (a : String) :
    Dict.get? (detachChildren cur p at_ cs) a = (Dict.get? cs a).map (fun c => c.detach cur p (at_ ++ [a])) := by
  induction cs with
  | nil => simp [detachChildren]
  | cons c cs ih =>
    obtain ⟨b, n⟩ := c
    simp only [detachChildren, Dict.get?_cons, ih]
    by_cases h : b = a
    · subst h; simp
    · simp [h]

theorem keys_detachChildren (cur : Tree) (p at_ : Path) (cs : List (String × Node)) :
    Dict.keys (detachChildren cur p at_ cs) = Dict.keys cs := by
  induction cs with
  | nil => simp [detachChildren]
  | cons c cs ih => obtain ⟨b, n⟩ := c; simp only [Dict.keys] at ih; simp [detachChildren, Dict.keys, ih]

theorem find_detach (cur : Tree) (p : Path) (r : Path) : ∀ (at_ : Path) (n : Node),
    (n.detach cur p at_).find r = (n.find r).map (fun m => m.detach cur p (at_ ++ r)) := by
  induction r with
  | nil => intro at_ n; simp
  | cons a r ih =>
    intro at_ n
    cases n with
    | mk ds us data cs =>
      rw [detach_mk, Node.find_cons, Node.find_cons]
      simp only [Node.children, get?_detachChildren]
      cases Dict.get? cs a with
      | none => rfl
      | some c => simp [ih, List.append_assoc]

theorem detach_fields (cur : Tree) (p at_ : Path) (n : Node) :
    (n.detach cur p at_).updates = n.updates ∧ (n.detach cur p at_).deltas = n.deltas ∧
    (n.detach cur p at_).data = detachData cur p at_ n.data ∧
    Dict.keys (n.detach cur p at_).children = Dict.keys n.children := by
  cases n with
  | mk ds us data cs => rw [detach_mk]; exact ⟨rfl, rfl, rfl, keys_detachChildren ..⟩

/-! ### subscribe -/

/-- The data a node at `r` has, or would be created with. -/
def nodeData (cur : Tree) (at_ : Path) : Node → Path → Option Data
  | n, [] => n.data
  | n, a :: r =>
    match Dict.get? n.children a with
    | some c => nodeData cur (at_ ++ [a]) c r
    | none => walkData cur at_ (a :: r) n.data

def addSub (s : Sub) (m : Node) : Node :=
  if s.delta then .mk (m.deltas ++ [s]) m.updates m.data m.children
  else .mk m.deltas (m.updates ++ [s]) m.data m.children

def firstMsg (s : Sub) (v : Tree) : Msg := if s.delta then .delta [([], v)] else .update v

/-- What may be found at `r` after subscribing to `path`. -/
structure SubFound (cur : Tree) (at_ : Path) (s : Sub) (path r : Path) (n m' : Node) : Prop where
  data : r <+: path → m'.data = nodeData cur at_ n r
  old : ¬ r <+: path → n.find r = some m'
  known : ∀ m, n.find r = some m → m'.data = m.data
  subs : ∀ x, (x ∈ m'.updates ∨ x ∈ m'.deltas) ↔
    (∃ m, n.find r = some m ∧ (x ∈ m.updates ∨ x ∈ m.deltas)) ∨ (r = path ∧ x = s)
  ups : ∀ x, x ∈ m'.updates ↔ (∃ m, n.find r = some m ∧ x ∈ m.updates) ∨ (r = path ∧ x = s ∧ s.delta = false)
  dels : ∀ x, x ∈ m'.deltas ↔ (∃ m, n.find r = some m ∧ x ∈ m.deltas) ∨ (r = path ∧ x = s ∧ s.delta = true)
  nodup : (∀ m, n.find r = some m → (Dict.keys m.children).Nodup ∧ m.updates.Nodup ∧ m.deltas.Nodup ∧
      s ∉ m.updates ∧ s ∉ m.deltas) →
    (Dict.keys m'.children).Nodup ∧ m'.updates.Nodup ∧ m'.deltas.Nodup

theorem newChain_spec (cur : Tree) (s : Sub) (path : Path) : ∀ (at_ : Path) (d : Option Data),
    (newChain cur at_ d s path).2 = [(s, firstMsg s (content cur (at_ ++ path) (walkData cur at_ path d)))] ∧
    ∀ r m', (newChain cur at_ d s path).1.find r = some m' →
      r <+: path ∧ m'.data = walkData cur at_ r d ∧
      (∀ x, x ∈ m'.updates ↔ r = path ∧ x = s ∧ s.delta = false) ∧
      (∀ x, x ∈ m'.deltas ↔ r = path ∧ x = s ∧ s.delta = true) ∧
      (Dict.keys m'.children).Nodup ∧ m'.updates.Nodup ∧ m'.deltas.Nodup := by
  induction path with
  | nil =>
    intro at_ d
    simp only [newChain, firstMsg, walkData, List.append_nil]
    refine ⟨by split <;> rfl, fun r m' h => ?_⟩
    cases r with
    | nil =>
      split at h <;> (simp only [Node.find_nil, Option.some.injEq] at h; subst h; rename_i hd)
      · simp [Node.data, Node.updates, Node.deltas, Node.children, Dict.keys, walkData, hd]
      · simp [Node.data, Node.updates, Node.deltas, Node.children, Dict.keys, walkData, hd]
    | cons a r => split at h <;> simp [Node.find_cons, Node.children] at h
  | cons a path ih =>
    intro at_ d
    have hi := ih (at_ ++ [a]) (childData cur at_ a d)
    simp only [newChain]
    refine ⟨by rw [hi.1]; simp [walkData, List.append_assoc], fun r m' h => ?_⟩
    cases r with
    | nil =>
      simp only [Node.find_nil, Option.some.injEq] at h; subst h
      simp [Node.data, Node.updates, Node.deltas, Node.children, Dict.keys, walkData]
    | cons b r =>
      rw [Node.find_cons] at h
      simp only [Node.children, Dict.get?_cons, Dict.get?_nil] at h
      by_cases hb : a = b
      · subst hb
        simp only [if_true, Option.bind_some] at h
        have := hi.2 r m' h
        refine ⟨?_, this.2.1, ?_⟩
        · simpa using this.1
        · simpa using this.2.2
      · simp [hb] at h

theorem subscribe_spec (cur : Tree) (s : Sub) (path : Path) : ∀ (at_ : Path) (n : Node),
    (n.subscribe cur at_ s path).2 = [(s, firstMsg s (content cur (at_ ++ path) (nodeData cur at_ n path)))] ∧
    (∀ r m', (n.subscribe cur at_ s path).1.find r = some m' → SubFound cur at_ s path r n m') ∧
    (∀ r m, n.find r = some m → ∃ m', (n.subscribe cur at_ s path).1.find r = some m') ∧
    (∃ m', (n.subscribe cur at_ s path).1.find path = some m') := by
  induction path with
  | nil =>
    intro at_ n
    cases n with
    | mk ds us data cs =>
      simp only [Node.subscribe, nodeData, Node.data, List.append_nil, firstMsg]
      refine ⟨by split <;> rfl, ?_, ?_, ⟨_, by rw [Node.find_nil]⟩⟩
      · intro r m' h
        cases r with
        | nil =>
          split at h <;> (simp only [Node.find_nil, Option.some.injEq] at h; subst h; rename_i hd)
          · constructor
            · intro _; rfl
            · intro h; simp at h
            · intro m hm; simp only [Node.find_nil, Option.some.injEq] at hm; subst hm; rfl
            · intro x; simp [Node.updates, Node.deltas, or_assoc]
            · intro x; simp [Node.updates, Node.deltas, hd]
            · intro x; simp [Node.updates, Node.deltas, hd]
            · intro hh
              have := hh _ (Node.find_nil _)
              simp only [Node.updates, Node.deltas, Node.children] at *
              refine ⟨this.1, this.2.1, ?_⟩
              rw [List.nodup_append]
              refine ⟨this.2.2.1, by simp, ?_⟩
              intro a ha b hb; simp at hb; subst hb; rintro rfl; exact this.2.2.2.2 ha
          · constructor
            · intro _; rfl
            · intro h; simp at h
            · intro m hm; simp only [Node.find_nil, Option.some.injEq] at hm; subst hm; rfl
            · intro x; simp [Node.updates, Node.deltas]
              constructor
              · rintro ((h | h) | h) <;> simp [h]
              · rintro ((h | h) | h) <;> simp [h]
            · intro x; simp [Node.updates, Node.deltas, hd]
            · intro x; simp [Node.updates, Node.deltas, hd]
            · intro hh
              have := hh _ (Node.find_nil _)
              simp only [Node.updates, Node.deltas, Node.children] at *
              refine ⟨this.1, ?_, this.2.2.1⟩
              rw [List.nodup_append]
              refine ⟨this.2.1, by simp, ?_⟩
              intro a ha b hb; simp at hb; subst hb; rintro rfl; exact this.2.2.2.1 ha
        | cons a r =>
          have hf : (Node.mk ds us data cs).find (a :: r) = some m' := by
            rw [Node.find_cons]; split at h <;> (rw [Node.find_cons] at h; exact h)
          constructor
          · intro h; simp at h
          · intro _; exact hf
          · intro m hm; rw [hf] at hm; cases hm; rfl
          · intro x; simp [hf]
          · intro x; simp [hf]
          · intro x; simp [hf]
          · intro hh; have := hh m' hf; exact ⟨this.1, this.2.1, this.2.2.1⟩
      · intro r m hm
        cases r with
        | nil => exact ⟨_, by rw [Node.find_nil]⟩
        | cons a r =>
          refine ⟨m, ?_⟩
          rw [Node.find_cons] at hm
          split <;> (rw [Node.find_cons]; exact hm)
  | cons a path ih =>
    intro at_ n
    cases n with
    | mk ds us data cs =>
      -- facts for the node itself
      have hself : ∀ (cs' : List (String × Node)),
          (((Dict.keys cs).Nodup) → (Dict.keys cs').Nodup) →
          SubFound cur at_ s (a :: path) [] (.mk ds us data cs) (.mk ds us data cs') := by
        intro cs' hk
        constructor
        · intro _; rfl
        · intro h; simp at h
        · intro m hm; simp only [Node.find_nil, Option.some.injEq] at hm; subst hm; rfl
        · intro x; simp [Node.updates, Node.deltas]
        · intro x; simp [Node.updates]
        · intro x; simp [Node.deltas]
        · intro hh
          have := hh _ (Node.find_nil _)
          exact ⟨hk this.1, this.2.1, this.2.2.1⟩
      have hother : ∀ (b : String) (r : Path) (m' : Node), a ≠ b →
          (Node.mk ds us data cs).find (b :: r) = some m' →
          SubFound cur at_ s (a :: path) (b :: r) (.mk ds us data cs) m' := by
        intro b r m' hab hf
        constructor
        · intro h; simp at h; exact absurd h.1.symm hab
        · intro _; exact hf
        · intro m hm; rw [hf] at hm; cases hm; rfl
        · intro x; simp [hf, Ne.symm hab]
        · intro x; simp [hf, Ne.symm hab]
        · intro x; simp [hf, Ne.symm hab]
        · intro hh; have := hh m' hf; exact ⟨this.1, this.2.1, this.2.2.1⟩
      cases hg : Dict.get? cs a with
      | none =>
        have hnc := newChain_spec cur s path (at_ ++ [a]) (childData cur at_ a data)
        have hkn : a ∉ Dict.keys cs := Dict.get?_none_iff.1 hg
        have hget : ∀ b, Dict.get? (cs ++ [(a, (newChain cur (at_ ++ [a]) (childData cur at_ a data) s path).1)]) b
            = if a = b then some (newChain cur (at_ ++ [a]) (childData cur at_ a data) s path).1 else Dict.get? cs b := by
          intro b
          clear hself hother
          induction cs with
          | nil => simp [Dict.get?_cons]
          | cons kv cs ih2 =>
            obtain ⟨k, v⟩ := kv
            have hk : k ≠ a := by
              intro h; rw [Dict.get?_cons, if_pos h] at hg; cases hg
            rw [Dict.get?_cons, if_neg hk] at hg
            have := ih2 hg (Dict.get?_none_iff.1 hg)
            simp only [List.cons_append, Dict.get?_cons, this]
            by_cases hab : a = b
            · subst hab; simp [hk]
            · simp [hab]
        simp only [Node.subscribe, hg]
        refine ⟨?_, ?_, ?_, ?_⟩
        · rw [hnc.1]; simp [nodeData, Node.children, hg, walkData, Node.data, List.append_assoc]
        · intro r m' h
          cases r with
          | nil =>
            simp only [Node.find_nil, Option.some.injEq] at h; subst h
            refine hself _ ?_
            intro hk
            simp only [Dict.keys, List.map_append, List.map_cons, List.map_nil]
            rw [List.nodup_append]
            refine ⟨hk, by simp, ?_⟩
            intro x hx y hy; simp at hy; subst hy; rintro rfl; exact hkn hx
          | cons b r =>
            rw [Node.find_cons] at h
            simp only [Node.children, hget] at h
            by_cases hab : a = b
            · subst hab
              simp only [if_true, Option.bind_some] at h
              have hsp := hnc.2 r m' h
              have hf : (Node.mk ds us data cs).find (a :: r) = none := by
                rw [Node.find_cons]; simp [Node.children, hg]
              constructor
              · intro _; rw [hsp.2.1]; simp [nodeData, Node.children, hg, walkData, Node.data]
              · intro h; exact absurd (by simpa using hsp.1) h
              · intro m hm; rw [hf] at hm; cases hm
              · intro x
                rw [hsp.2.2.1, hsp.2.2.2.1, hf]
                cases s.delta <;> simp
              · intro x; rw [hsp.2.2.1, hf]; simp
              · intro x; rw [hsp.2.2.2.1, hf]; simp
              · intro _; exact hsp.2.2.2.2
            · simp only [hab, if_false] at h
              exact hother b r m' hab (by rw [Node.find_cons]; exact h)
        · intro r m hm
          cases r with
          | nil => exact ⟨_, by rw [Node.find_nil]⟩
          | cons b r =>
            rw [Node.find_cons] at hm
            simp only [Node.children] at hm
            by_cases hab : a = b
            · subst hab; rw [hg] at hm; cases hm
            · exact ⟨m, by rw [Node.find_cons]; simpa [Node.children, hget, hab] using hm⟩
        · rw [Node.find_cons]
          simp only [Node.children, hget, if_true, Option.bind_some]
          have : ∀ (path at_ : Path) (d : Option Data), ∃ m', (newChain cur at_ d s path).1.find path = some m' := by
            intro path
            induction path with
            | nil => intro at_ d; exact ⟨_, by rw [Node.find_nil]⟩
            | cons b path ih =>
              intro at_ d
              obtain ⟨m', hm'⟩ := ih (at_ ++ [b]) (childData cur at_ b d)
              exact ⟨m', by rw [newChain, Node.find_cons]; simpa [Node.children, Dict.get?_cons] using hm'⟩
          exact this path _ _
      | some c =>
        have hi := ih (at_ ++ [a]) c
        simp only [Node.subscribe, hg]
        refine ⟨?_, ?_, ?_, ?_⟩
        · rw [hi.1]; simp [nodeData, Node.children, hg, List.append_assoc]
        · intro r m' h
          cases r with
          | nil =>
            simp only [Node.find_nil, Option.some.injEq] at h; subst h
            exact hself _ (fun hk => Dict.nodup_set hk _ _)
          | cons b r =>
            rw [Node.find_cons] at h
            simp only [Node.children, Dict.get?_set] at h
            by_cases hab : a = b
            · subst hab
              simp only [if_true, Option.bind_some] at h
              have hsp := hi.2.1 r m' h
              have hf : (Node.mk ds us data cs).find (a :: r) = c.find r := by
                rw [Node.find_cons]; simp [Node.children, hg]
              constructor
              · intro hp; rw [hsp.data (by simpa using hp)]; simp [nodeData, Node.children, hg]
              · intro hp; rw [hf]; exact hsp.old (by simpa using hp)
              · intro m hm; rw [hf] at hm; exact hsp.known m hm
              · intro x; rw [hsp.subs, hf]; simp
              · intro x; rw [hsp.ups, hf]; simp
              · intro x; rw [hsp.dels, hf]; simp
              · intro hh; rw [hf] at hh; exact hsp.nodup hh
            · simp only [hab, if_false] at h
              exact hother b r m' hab (by rw [Node.find_cons]; exact h)
        · intro r m hm
          cases r with
          | nil => exact ⟨_, by rw [Node.find_nil]⟩
          | cons b r =>
            rw [Node.find_cons] at hm
            simp only [Node.children] at hm
            by_cases hab : a = b
            · subst hab; rw [hg] at hm
              obtain ⟨m', hm'⟩ := hi.2.2.1 r m hm
              exact ⟨m', by rw [Node.find_cons]; simpa [Node.children] using hm'⟩
            · exact ⟨m, by rw [Node.find_cons]; simpa [Node.children, Dict.get?_set, hab] using hm⟩
        · rw [Node.find_cons]
          simpa [Node.children] using hi.2.2.2

end Verif.Notifier
