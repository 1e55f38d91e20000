import Verif.Spec.Notifier
import Verif.Proofs.PyDict
set_option linter.unusedSectionVars false
set_option linter.unusedVariables false
namespace Verif.Notifier
open Verif Spec

theorem stripPrefix_some {p q r : Path} : stripPrefix p q = some r ↔ q = p ++ r := by
  induction p generalizing q with
  | nil => simp [stripPrefix]
  | cons a p ih =>
    cases q with
    | nil => simp [stripPrefix]
    | cons b q =>
      simp only [stripPrefix, List.cons_append, List.cons.injEq]
      by_cases h : a = b
      · subst h; simp [ih]
      · simp [h, Ne.symm h]

theorem stripPrefix_none {p q : Path} : stripPrefix p q = none ↔ ¬ p <+: q := by
  constructor
  · rintro h ⟨r, hr⟩
    rw [(stripPrefix_some (r := r)).2 hr.symm] at h; cases h
  · intro h
    cases hs : stripPrefix p q with
    | none => rfl
    | some r => exact absurd ⟨r, (stripPrefix_some.1 hs).symm⟩ h

theorem stripPrefix_isSome {p q : Path} : (stripPrefix p q).isSome = true ↔ p <+: q := by
  cases hs : stripPrefix p q with
  | none => simp [stripPrefix_none.1 hs]
  | some r => simp; exact ⟨r, (stripPrefix_some.1 hs).symm⟩

@[simp] theorem stripPrefix_append (p r : Path) : stripPrefix p (p ++ r) = some r :=
  stripPrefix_some.2 rfl

@[simp] theorem stripPrefix_self (p : Path) : stripPrefix p p = some [] :=
  stripPrefix_some.2 (by simp)

@[simp] theorem stripPrefix_nil (q : Path) : stripPrefix [] q = some q := rfl

@[simp] theorem setAt_append (t : Tree) (p : Path) (v : Tree) (r : Path) :
    t.setAt p v (p ++ r) = v r := by simp [Tree.setAt]

@[simp] theorem setAt_self (t : Tree) (p : Path) (v : Tree) : t.setAt p v p = v [] := by
  simp [Tree.setAt]

theorem setAt_other (t : Tree) {p : Path} (v : Tree) {q : Path} (h : ¬ p <+: q) :
    t.setAt p v q = t q := by simp [Tree.setAt, stripPrefix_none.2 h]

@[simp] theorem setAt_nil (t v : Tree) : t.setAt [] v = v := by funext q; simp [Tree.setAt]

@[simp] theorem sub_nil (t : Tree) : t.sub [] = t := by funext q; simp [Tree.sub]
@[simp] theorem sub_sub (t : Tree) (p q : Path) : (t.sub p).sub q = t.sub (p ++ q) := by
  funext r; simp [Tree.sub]
@[simp] theorem sub_apply (t : Tree) (p q : Path) : t.sub p q = t (p ++ q) := rfl

theorem sub_setAt_below (t : Tree) (p r : Path) (v : Tree) : (t.setAt p v).sub (p ++ r) = v.sub r := by
  funext q; simp [Tree.sub, List.append_assoc]

theorem sub_setAt_above (t : Tree) (r p : Path) (v : Tree) :
    (t.setAt (r ++ p) v).sub r = (t.sub r).setAt p v := by
  funext q
  by_cases h : p <+: q
  · obtain ⟨x, rfl⟩ := h
    simp only [sub_apply, setAt_append]
    rw [← List.append_assoc, setAt_append]
  · rw [setAt_other _ _ h, sub_apply, setAt_other, sub_apply]
    rwa [List.prefix_append_right_inj]

/-! ### nodes by path -/

def Node.find : Node → Path → Option Node
  | n, [] => some n
  | n, a :: r => (Dict.get? n.children a).bind (fun c => c.find r)

@[simp] theorem Node.find_nil (n : Node) : n.find [] = some n := by cases n; rfl
theorem Node.find_cons (n : Node) (a : String) (r : Path) :
    n.find (a :: r) = (Dict.get? n.children a).bind (fun c => c.find r) := by cases n; rfl

theorem Node.find_append (n : Node) (a b : Path) : n.find (a ++ b) = (n.find a).bind (·.find b) := by
  induction a generalizing n with
  | nil => simp
  | cons x a ih =>
    simp only [List.cons_append, Node.find_cons]
    cases Dict.get? n.children x with
    | none => rfl
    | some c => simp [ih]

/-! ### the changes handed to a child -/

def childOf (cur : Tree) (at_ : Path) (a : String) (c : Change) : Option Change :=
  match c.1 with
  | [] => some ([], childData cur at_ a c.2)
  | b :: rest => if b = a then some (rest, c.2) else none

def childCh (cur : Tree) (at_ : Path) (a : String) (ch : List Change) : List Change :=
  ch.filterMap (childOf cur at_ a)

def lastData (d : Option Data) (ch : List Change) : Option Data :=
  ch.foldl (fun d c => if c.1 = [] then c.2 else d) d

/-- `d.get(k)` as a list. -/
def getL (cc : Dict String (List Change)) (a : String) : List Change := (Dict.get? cc a).getD []

theorem getL_push (cc : Dict String (List Change)) (a b : String) (c : Change) :
    getL (pushChange cc a c) b = getL cc b ++ (if a = b then [c] else []) := by
  unfold getL pushChange
  rw [Dict.get?_set]
  by_cases h : a = b
  · subst h; simp
  · simp [h]

theorem keys_push (cc : Dict String (List Change)) (a b : String) (c : Change) :
    b ∈ Dict.keys (pushChange cc a c) ↔ b ∈ Dict.keys cc ∨ b = a := by
  unfold pushChange; rw [Dict.keys_set]; split
  · rename_i h
    exact ⟨Or.inl, fun h' => h'.elim id (fun e => e ▸ h)⟩
  · simp

/-- No stored list is empty, keys are distinct. -/
structure CCok (cc : Dict String (List Change)) (names : List String) : Prop where
  nodup : (Dict.keys cc).Nodup
  sub : ∀ a ∈ Dict.keys cc, a ∈ names
  ne : ∀ a ∈ Dict.keys cc, getL cc a ≠ []

theorem CCok.push {cc names} (h : CCok cc names) {a : String} (c : Change) (ha : a ∈ names) :
    CCok (pushChange cc a c) names where
  nodup := Dict.nodup_set h.nodup _ _
  sub := by
    intro b hb; rw [keys_push] at hb
    rcases hb with hb | rfl
    · exact h.sub b hb
    · exact ha
  ne := by
    intro b hb
    rw [getL_push]; rw [keys_push] at hb
    rcases hb with hb | rfl
    · simp [h.ne b hb]
    · simp

theorem pushAll (cur : Tree) (at_ : Path) (d : Option Data) (names all : List String)
    (hn : names.Nodup) (hs : ∀ a ∈ names, a ∈ all) (cc : Dict String (List Change)) (h : CCok cc all) :
    let cc' := names.foldl (fun cc name => pushChange cc name ([], childData cur at_ name d)) cc
    CCok cc' all ∧ ∀ a, getL cc' a = getL cc a ++ (if a ∈ names then [([], childData cur at_ a d)] else []) := by
  induction names generalizing cc with
  | nil => exact ⟨h, by simp⟩
  | cons b names ih =>
    obtain ⟨hb, hn⟩ := List.nodup_cons.1 hn
    have h1 := ih hn (fun a ha => hs a (List.mem_cons_of_mem _ ha)) _
      (h.push ([], childData cur at_ b d) (hs b (List.mem_cons_self ..)))
    refine ⟨h1.1, fun a => ?_⟩
    have h2 := h1.2 a
    simp only [List.foldl_cons] at *
    rw [h2, getL_push]
    by_cases hab : b = a
    · subst hab; simp [hb]
    · simp [hab, Ne.symm hab]

theorem foldl_addChange (cur : Tree) (at_ : Path) (names : List String) (hn : names.Nodup)
    (ch : List Change) (d : Option Data) (cc : Dict String (List Change)) (h : CCok cc names) :
    let st := ch.foldl (addChange cur at_ names) (d, cc)
    st.1 = lastData d ch ∧ CCok st.2 names ∧
      ∀ a ∈ names, getL st.2 a = getL cc a ++ childCh cur at_ a ch := by
  induction ch generalizing d cc with
  | nil => exact ⟨rfl, h, by simp [childCh]⟩
  | cons c ch ih =>
    obtain ⟨p, dt⟩ := c
    cases p with
    | nil =>
      have hp := pushAll cur at_ dt names names hn (fun _ h => h) cc h
      have := ih dt _ hp.1
      refine ⟨?_, this.2.1, fun a ha => ?_⟩
      · simpa [lastData, addChange] using this.1
      · have h3 := this.2.2 a ha
        simp only [List.foldl_cons, addChange] at *
        rw [h3, hp.2 a]; simp [ha, childCh, childOf]
    | cons b rest =>
      by_cases hb : b ∈ names
      · have := ih d _ (h.push (rest, dt) hb)
        refine ⟨?_, ?_, fun a ha => ?_⟩
        · simpa [lastData, addChange, hb] using this.1
        · simpa [addChange, hb] using this.2.1
        · have h3 := this.2.2 a ha
          simp only [List.foldl_cons, addChange, hb, if_true] at *
          rw [h3, getL_push]
          by_cases hab : b = a
          · subst hab; simp [childCh, childOf]
          · simp [childCh, childOf, hab]
      · have := ih d cc h
        refine ⟨?_, ?_, fun a ha => ?_⟩
        · simpa [lastData, addChange, hb] using this.1
        · simpa [addChange, hb] using this.2.1
        · have h3 := this.2.2 a ha
          have hab : b ≠ a := by rintro rfl; exact hb ha
          simp only [List.foldl_cons, addChange, hb, if_false] at *
          rw [h3]; simp [childCh, childOf, hab]

theorem getL_eq_nil {cc names} (h : CCok cc names) (a : String) : getL cc a = [] ↔ Dict.get? cc a = none := by
  constructor
  · intro he
    by_cases hk : a ∈ Dict.keys cc
    · exact absurd he (h.ne a hk)
    · exact Dict.get?_none_iff.2 hk
  · intro hg; simp [getL, hg]

theorem get?_of_getL {cc names} (h : CCok cc names) (a : String) :
    Dict.get? cc a = if getL cc a = [] then none else some (getL cc a) := by
  split
  · rename_i he; exact (getL_eq_nil h a).1 he
  · rename_i he
    cases hg : Dict.get? cc a with
    | none => exact absurd ((getL_eq_nil h a).2 hg) he
    | some l => simp [getL, hg]

/-! ### notify_changes -/

theorem notifyChildren_nil (cur : Tree) (at_ : Path) (cs : List (String × Node)) :
    notifyChildren cur at_ cs [] = cs.map (fun c => (c.1, c.2, [])) := by
  induction cs with
  | nil => simp [notifyChildren]
  | cons c cs ih => obtain ⟨a, n⟩ := c; simp [notifyChildren, ih]

theorem notify_nil (cur : Tree) (at_ : Path) (n : Node) : (n.notify cur at_ []).1 = n := by
  cases n with
  | mk ds us data cs =>
    simp [Node.notify, notifyChildren_nil, Function.comp_def]

theorem keys_notifyChildren (cur : Tree) (at_ : Path) (cs : List (String × Node)) (cc) :
    Dict.keys (notifyChildren cur at_ cs cc) = Dict.keys cs := by
  induction cs with
  | nil => simp [notifyChildren, Dict.keys]
  | cons c cs ih =>
    obtain ⟨a, n⟩ := c
    simp only [notifyChildren, Dict.keys, List.map_cons] at *
    rw [ih]; congr 1; split <;> rfl

theorem get?_notifyChildren (cur : Tree) (at_ : Path) (cs : List (String × Node)) (cc) (a : String) :
    Dict.get? (notifyChildren cur at_ cs cc) a =
      (Dict.get? cs a).map (fun n => match Dict.get? cc a with
        | none => (n, [])
        | some ch => n.notify cur (at_ ++ [a]) ch) := by
  induction cs with
  | nil => simp [notifyChildren]
  | cons c cs ih =>
    obtain ⟨b, n⟩ := c
    by_cases h : b = a
    · subst h
      simp only [notifyChildren]
      cases Dict.get? cc b <;> simp [Dict.get?_cons]
    · simp only [notifyChildren]
      cases Dict.get? cc b <;> simp [Dict.get?_cons, h, ih]

theorem get?_map_val {K V W : Type} [DecidableEq K] (d : Dict K V) (f : V → W) (a : K) :
    Dict.get? (d.map (fun r => (r.1, f r.2))) a = (Dict.get? d a).map f := by
  induction d with
  | nil => rfl
  | cons kv d ih =>
    obtain ⟨k, v⟩ := kv
    simp only [List.map_cons, Dict.get?_cons, ih]
    split <;> rfl

/-- The structure of a node after `notify_changes`. -/
theorem notify_fst (cur : Tree) (at_ : Path) (n : Node) (hn : (Dict.keys n.children).Nodup)
    (ch : List Change) :
    (n.notify cur at_ ch).1.deltas = n.deltas ∧ (n.notify cur at_ ch).1.updates = n.updates ∧
    (n.notify cur at_ ch).1.data = lastData n.data ch ∧
    Dict.keys (n.notify cur at_ ch).1.children = Dict.keys n.children ∧
    ∀ a, Dict.get? (n.notify cur at_ ch).1.children a =
      (Dict.get? n.children a).map (fun c => (c.notify cur (at_ ++ [a]) (childCh cur at_ a ch)).1) := by
  cases n with
  | mk ds us data cs =>
    have hn' : (cs.map (fun x : String × Node => x.1)).Nodup := hn
    have hf := foldl_addChange cur at_ (cs.map (·.1)) hn' ch data []
      ⟨by simp [Dict.keys], by simp [Dict.keys], by simp [Dict.keys]⟩
    simp only [Node.notify, Node.deltas, Node.updates, Node.data, Node.children, true_and]
    refine ⟨hf.1, ?_, fun a => ?_⟩
    · have := keys_notifyChildren cur at_ cs (ch.foldl (addChange cur at_ (cs.map (·.1))) (data, [])).2
      simpa [Dict.keys, Function.comp_def] using this
    · rw [get?_map_val _ (fun x : Node × List Resp => x.1), get?_notifyChildren, Option.map_map]
      cases hg : Dict.get? cs a with
      | none => rfl
      | some c =>
        have ha : a ∈ cs.map (·.1) := List.mem_map.2 ⟨_, Dict.get?_mem hg, rfl⟩
        have h3 := hf.2.2 a ha
        simp only [getL, Dict.get?_nil, Option.getD_none, List.nil_append] at h3
        simp only [Option.map_some, Function.comp]
        rw [get?_of_getL hf.2.1]
        simp only [getL, h3]
        by_cases he : childCh cur at_ a ch = []
        · simp [he, notify_nil]
        · simp [he]

def rel (cur : Tree) (at_ : Path) : Path → List Change → List Change
  | [], ch => ch
  | a :: r, ch => rel cur (at_ ++ [a]) r (childCh cur at_ a ch)

/-- every node below has distinctly named children -/
def Named (n : Node) : Prop := ∀ r m, n.find r = some m → (Dict.keys m.children).Nodup

theorem Named.child {n : Node} (h : Named n) {a : String} {c : Node}
    (hc : Dict.get? n.children a = some c) : Named c := by
  intro r m hm
  exact h (a :: r) m (by rw [Node.find_cons, hc]; exact hm)

theorem find_notify (cur : Tree) (r : Path) : ∀ (at_ : Path) (n : Node), Named n → ∀ ch : List Change,
    (n.notify cur at_ ch).1.find r =
      (n.find r).map (fun m => (m.notify cur (at_ ++ r) (rel cur at_ r ch)).1) := by
  induction r with
  | nil => intro at_ n hn ch; simp [rel]
  | cons a r ih =>
    intro at_ n hn ch
    have hf := notify_fst cur at_ n (hn [] n (by simp)) ch
    rw [Node.find_cons, Node.find_cons, hf.2.2.2.2 a]
    cases hg : Dict.get? n.children a with
    | none => rfl
    | some c =>
      simp only [Option.map_some, Option.bind_some]
      rw [ih (at_ ++ [a]) c (hn.child hg)]
      simp [rel, List.append_assoc]

/-! ### responses of notify_changes -/

def ownMsgs (cur : Tree) (at_ : Path) (m : Node) (ch : List Change) : List Resp :=
  m.updates.map (fun s => (s, Msg.update (content cur at_ (lastData m.data ch))))
    ++ m.deltas.map (fun s => (s, Msg.delta (ch.map (freezeChange cur at_))))

theorem notify_snd (cur : Tree) (at_ : Path) (n : Node) (hn : (Dict.keys n.children).Nodup)
    (ch : List Change) :
    ∃ names : List String, names.Nodup ∧
      (∀ a, a ∈ names ↔ a ∈ Dict.keys n.children ∧ childCh cur at_ a ch ≠ []) ∧
      (n.notify cur at_ ch).2 = ownMsgs cur at_ n ch ++ names.flatMap (fun a =>
        match Dict.get? n.children a with
        | none => []
        | some c => (c.notify cur (at_ ++ [a]) (childCh cur at_ a ch)).2) := by
  cases n with
  | mk ds us data cs =>
    have hn' : (cs.map (fun x : String × Node => x.1)).Nodup := hn
    have hf := foldl_addChange cur at_ (cs.map (·.1)) hn' ch data []
      ⟨by simp [Dict.keys], by simp [Dict.keys], by simp [Dict.keys]⟩
    dsimp only at hf
    generalize hst : ch.foldl (addChange cur at_ (cs.map (·.1))) (data, []) = st at hf
    have hkey : ∀ a, a ∈ Dict.keys st.2 ↔ a ∈ Dict.keys cs ∧ childCh cur at_ a ch ≠ [] := by
      intro a
      constructor
      · intro h
        have h1 := hf.2.1.sub a h
        refine ⟨h1, ?_⟩
        have h3 := hf.2.2 a h1
        simp only [getL, Dict.get?_nil, Option.getD_none, List.nil_append] at h3
        rw [← h3]; exact hf.2.1.ne a h
      · rintro ⟨h1, h2⟩
        have h3 := hf.2.2 a h1
        simp only [show getL ([] : Dict String (List Change)) a = [] from rfl, List.nil_append] at h3
        cases hk : Dict.get? st.2 a with
        | none => exact absurd ((getL_eq_nil hf.2.1 a).2 hk) (h3 ▸ h2)
        | some l => exact List.mem_map.2 ⟨_, Dict.get?_mem hk, rfl⟩
    refine ⟨Dict.keys st.2, hf.2.1.nodup, hkey, ?_⟩
    simp only [Node.notify, hst, ownMsgs, Node.updates, Node.deltas, Node.data, Node.children, hf.1]
    congr 1
    simp only [Dict.keys, List.flatMap_map]
    refine congrArg List.flatten (List.map_congr_left fun nc hnc => ?_)
    rw [get?_notifyChildren]
    have hk : nc.1 ∈ Dict.keys st.2 := List.mem_map.2 ⟨_, hnc, rfl⟩
    have h1 := (hkey nc.1).1 hk
    have h3 := hf.2.2 nc.1 h1.1
    simp only [show getL ([] : Dict String (List Change)) nc.1 = [] from rfl, List.nil_append] at h3
    rw [get?_of_getL hf.2.1, h3, if_neg h1.2]
    cases Dict.get? cs nc.1 <;> rfl

/-- Every response goes to a subscription registered at some node. -/
theorem notify_from (cur : Tree) : ∀ (k : Nat) (n : Node), sizeOf n ≤ k → ∀ (at_ : Path), Named n → ∀ (ch : List Change),
    ∀ rsp ∈ (n.notify cur at_ ch).2, ∃ r m, n.find r = some m ∧ (rsp.1 ∈ m.updates ∨ rsp.1 ∈ m.deltas) := by
  intro k
  induction k with
  | zero => intro n h; cases n; simp at h
  | succ k ih =>
    intro n hk at_ hn ch rsp hr
    obtain ⟨names, _, _, he⟩ := notify_snd cur at_ n (hn [] n (by simp)) ch
    rw [he] at hr
    rcases List.mem_append.1 hr with hr | hr
    · refine ⟨[], n, by simp, ?_⟩
      simp only [ownMsgs, List.mem_append, List.mem_map] at hr
      rcases hr with ⟨s, hs, rfl⟩ | ⟨s, hs, rfl⟩
      · exact Or.inl hs
      · exact Or.inr hs
    · obtain ⟨a, _, hr⟩ := List.mem_flatMap.1 hr
      cases hg : Dict.get? n.children a with
      | none => rw [hg] at hr; simp at hr
      | some c =>
        rw [hg] at hr
        have hsz : sizeOf c ≤ k := by
          have := List.sizeOf_lt_of_mem (Dict.get?_mem hg)
          cases n with
          | mk ds us data cs =>
            simp only [Node.children, Node.mk.sizeOf_spec, Prod.mk.sizeOf_spec] at this hk
            omega
        obtain ⟨r, m, hm, hs⟩ := ih c hsz _ (hn.child hg) _ _ hr
        exact ⟨a :: r, m, by rw [Node.find_cons, hg]; exact hm, hs⟩

/-- Subscriptions sit at the node of their path. -/
def Placed (at_ : Path) (n : Node) : Prop :=
  ∀ r m, n.find r = some m →
    (∀ s ∈ m.updates, s.path = at_ ++ r ∧ s.delta = false) ∧
    (∀ s ∈ m.deltas, s.path = at_ ++ r ∧ s.delta = true) ∧ m.updates.Nodup ∧ m.deltas.Nodup

theorem Placed.child {at_ : Path} {n : Node} (h : Placed at_ n) {a : String} {c : Node}
    (hc : Dict.get? n.children a = some c) : Placed (at_ ++ [a]) c := by
  intro r m hm
  have := h (a :: r) m (by rw [Node.find_cons, hc]; exact hm)
  simpa [List.append_assoc] using this

theorem received_append (a b : List Resp) (s : Sub) : received (a ++ b) s = received a s ++ received b s := by
  simp [received]

theorem received_none {l : List Resp} {s : Sub} (h : ∀ r ∈ l, r.1 ≠ s) : received l s = [] := by
  simp only [received, List.filterMap_eq_nil_iff]
  intro r hr; simp [h r hr]

theorem received_flatMap (l : List String) (f : String → List Resp) (s : Sub) :
    received (l.flatMap f) s = l.flatMap (fun a => received (f a) s) := by
  induction l with
  | nil => rfl
  | cons a l ih => simp [received_append, ih]

theorem flatMap_single {l : List String} (hn : l.Nodup) (f : String → List Msg) (a : String)
    (h : ∀ b ∈ l, b ≠ a → f b = []) : l.flatMap f = if a ∈ l then f a else [] := by
  induction l with
  | nil => simp
  | cons b l ih =>
    obtain ⟨hb, hn⟩ := List.nodup_cons.1 hn
    rw [List.flatMap_cons, ih hn (fun c hc => h c (List.mem_cons_of_mem _ hc))]
    by_cases hba : b = a
    · subst hba; simp [hb]
    · rw [h b (List.mem_cons_self ..) hba]; simp [Ne.symm hba]

theorem received_map {l : List Sub} (hn : l.Nodup) (m : Msg) (s : Sub) :
    received (l.map (fun s => (s, m))) s = if s ∈ l then [m] else [] := by
  induction l with
  | nil => simp [received]
  | cons b l ih =>
    obtain ⟨hb, hn⟩ := List.nodup_cons.1 hn
    have ih := ih hn
    simp only [received, List.map_cons, List.filterMap_cons] at *
    by_cases h : b = s
    · subst h; simp_all
    · simp [h, ih, Ne.symm h]

/-- What one subscription receives from `notify_changes`. -/
theorem received_notify (cur : Tree) (s : Sub) (r : Path) : ∀ (at_ : Path) (n : Node), Named n → Placed at_ n →
    s.path = at_ ++ r → ∀ ch : List Change,
    received (n.notify cur at_ ch).2 s =
      match n.find r with
      | none => []
      | some m => if r ≠ [] ∧ rel cur at_ r ch = [] then [] else
          received (ownMsgs cur s.path m (rel cur at_ r ch)) s := by
  induction r with
  | nil =>
    intro at_ n hn hp hs ch
    obtain ⟨names, _, _, he⟩ := notify_snd cur at_ n (hn [] n (by simp)) ch
    rw [he, received_append]
    have : s.path = at_ := by simpa using hs
    simp only [Node.find_nil, rel, ne_eq, not_true_eq_false, false_and, if_false, this]
    suffices h : received (names.flatMap _) s = [] by rw [h]; simp
    refine received_none fun rsp hr hrs => ?_
    obtain ⟨a, _, hr⟩ := List.mem_flatMap.1 hr
    cases hg : Dict.get? n.children a with
    | none => rw [hg] at hr; simp at hr
    | some c =>
      rw [hg] at hr
      obtain ⟨r, m, hm, hx⟩ := notify_from cur _ c (Nat.le_refl _) _ (hn.child hg) _ _ hr
      have hpl := (hp.child hg) r m hm
      have : rsp.1.path = at_ ++ [a] ++ r := hx.elim (fun h => (hpl.1 _ h).1) (fun h => (hpl.2.1 _ h).1)
      rw [hrs, hs] at this
      simp at this
  | cons b r ih =>
    intro at_ n hn hp hs ch
    obtain ⟨names, hnd, hnm, he⟩ := notify_snd cur at_ n (hn [] n (by simp)) ch
    rw [he, received_append]
    have hown : received (ownMsgs cur at_ n ch) s = [] := by
      refine received_none fun rsp hr hrs => ?_
      have hpl := hp [] n (by simp)
      simp only [ownMsgs, List.mem_append, List.mem_map] at hr
      have : s.path = at_ := by
        rcases hr with ⟨s', hs', rfl⟩ | ⟨s', hs', rfl⟩
        · have := (hpl.1 _ hs').1; simp only at hrs; rw [← hrs]; simpa using this
        · have := (hpl.2.1 _ hs').1; simp only at hrs; rw [← hrs]; simpa using this
      rw [hs] at this; simp at this
    rw [hown, List.nil_append, received_flatMap, flatMap_single hnd _ b]
    · rw [Node.find_cons]
      cases hg : Dict.get? n.children b with
      | none => simp [received]
      | some c =>
        have hk : b ∈ Dict.keys n.children := List.mem_map.2 ⟨_, Dict.get?_mem hg, rfl⟩
        have hih := ih (at_ ++ [b]) c (hn.child hg) (hp.child hg) (by simp [hs]) (childCh cur at_ b ch)
        simp only [Option.bind_some]
        by_cases hc : childCh cur at_ b ch = []
        · have : b ∉ names := fun h => ((hnm b).1 h).2 hc
          simp only [this, if_false, rel, hc]
          have hrel : ∀ (x : Path) (r : Path), rel cur x r [] = [] := by
            intro x r; induction r generalizing x with
            | nil => rfl
            | cons a r ih => simp [rel, childCh, ih]
          rw [hrel]; cases c.find r <;> simp
        · have : b ∈ names := (hnm b).2 ⟨hk, hc⟩
          simp only [this, if_true, hih, rel]
          cases hm : c.find r with
          | none => rfl
          | some m =>
            by_cases hr : r = []
            · subst hr
              simp [rel, hc]
            · simp [hr]
    · intro a _ hab
      cases hg : Dict.get? n.children a with
      | none => simp [received]
      | some c =>
        refine received_none fun rsp hr hrs => ?_
        obtain ⟨r', m, hm, hx⟩ := notify_from cur _ c (Nat.le_refl _) _ (hn.child hg) _ _ hr
        have hpl := (hp.child hg) r' m hm
        have : rsp.1.path = at_ ++ [a] ++ r' := hx.elim (fun h => (hpl.1 _ h).1) (fun h => (hpl.2.1 _ h).1)
        rw [hrs, hs] at this
        simp only [List.append_assoc, List.append_cancel_left_eq, List.cons_append, List.cons.injEq] at this
        exact hab this.1.symm

/-! ### which changes matter at a path -/

def walkData (cur : Tree) (at_ : Path) : Path → Option Data → Option Data
  | [], d => d
  | a :: r, d => walkData cur (at_ ++ [a]) r (childData cur at_ a d)

def relOf (cur : Tree) (at_ r : Path) (c : Change) : Option Change :=
  match stripPrefix r c.1 with
  | some p' => some (p', c.2)
  | none =>
    match stripPrefix c.1 r with
    | some r' => some ([], walkData cur (at_ ++ c.1) r' c.2)
    | none => none

theorem rel_eq (cur : Tree) (r : Path) : ∀ (at_ : Path) (ch : List Change),
    rel cur at_ r ch = ch.filterMap (relOf cur at_ r) := by
  induction r with
  | nil =>
    intro at_ ch
    have : relOf cur at_ [] = some := by funext c; simp [relOf]
    simp [rel, this]
  | cons a r ih =>
    intro at_ ch
    rw [rel, ih, childCh, List.filterMap_filterMap]
    congr 1
    funext c
    obtain ⟨p, d⟩ := c
    cases p with
    | nil =>
      simp only [childOf, Option.bind_some, relOf, stripPrefix, walkData, List.append_nil]
      cases r with
      | nil => simp [stripPrefix, walkData]
      | cons b r => simp [stripPrefix]
    | cons b p =>
      simp only [childOf, relOf, stripPrefix]
      by_cases h : b = a
      · subst h; simp [relOf, List.append_assoc]
      · simp [h, Ne.symm h]

/-- The last change at or above `x`. -/
def lastCov : List Change → Path → Option Change
  | [], _ => none
  | c :: l, x =>
    match lastCov l x with
    | some d => some d
    | none => if (stripPrefix c.1 x).isSome then some c else none

theorem lastCov_some {l : List Change} {x : Path} {c : Change} (h : lastCov l x = some c) :
    c ∈ l ∧ c.1 <+: x := by
  induction l with
  | nil => simp [lastCov] at h
  | cons d l ih =>
    simp only [lastCov] at h
    split at h
    · rename_i e he
      cases h
      have := ih he
      exact ⟨List.mem_cons_of_mem _ this.1, this.2⟩
    · split at h
      · cases h; rename_i hs
        exact ⟨List.mem_cons_self .., stripPrefix_isSome.1 hs⟩
      · cases h

theorem lastCov_none {l : List Change} {x : Path} : lastCov l x = none ↔ ∀ c ∈ l, ¬ c.1 <+: x := by
  induction l with
  | nil => simp [lastCov]
  | cons d l ih =>
    simp only [lastCov, List.mem_cons, forall_eq_or_imp]
    cases hl : lastCov l x with
    | some e =>
      have := lastCov_some hl
      simp only [reduceCtorEq, false_iff, not_and]
      intro _ hh; exact hh e this.1 this.2
    | none =>
      rw [ih] at hl
      simp only [ite_eq_right_iff, reduceCtorEq, imp_false, stripPrefix_isSome]
      exact ⟨fun h => ⟨h, hl⟩, fun h => h.1⟩

theorem lastCov_append (l l2 : List Change) (x : Path) :
    lastCov (l ++ l2) x = (lastCov l2 x).or (lastCov l x) := by
  induction l with
  | nil => simp [lastCov]
  | cons c l ih =>
    simp only [List.cons_append, lastCov, ih]
    cases lastCov l2 x with
    | some e => simp
    | none => simp

theorem lastCov_map (f : Change → Change) (hf : ∀ c, (f c).1 = c.1) (l : List Change) (x : Path) :
    lastCov (l.map f) x = (lastCov l x).map f := by
  induction l with
  | nil => rfl
  | cons c l ih =>
    simp only [List.map_cons, lastCov, ih, hf]
    cases lastCov l x with
    | some e => rfl
    | none => simp only [Option.map_none]; split <;> rfl

/-- The data of a node after the changes. -/
theorem lastData_rel (cur : Tree) (r : Path) (ch : List Change) (d : Option Data) :
    lastData d (rel cur [] r ch) =
      match lastCov ch r with
      | some c => (match stripPrefix c.1 r with | some r' => walkData cur c.1 r' c.2 | none => d)
      | none => d := by
  rw [rel_eq]
  induction ch generalizing d with
  | nil => rfl
  | cons c ch ih =>
    simp only [List.filterMap_cons, lastCov]
    have key : ∀ d', (match lastCov ch r with
        | some c => (match stripPrefix c.1 r with | some r' => walkData cur c.1 r' c.2 | none => d')
        | none => d') = match lastCov ch r with
        | some c => (match stripPrefix c.1 r with | some r' => walkData cur c.1 r' c.2 | none => d)
        | none => d' := by
      intro d'
      cases h : lastCov ch r with
      | none => rfl
      | some e =>
        obtain ⟨y, hy⟩ := (lastCov_some h).2
        simp [← hy]
    have hstep : ∀ e l, lastData d (e :: l) = lastData (if e.1 = [] then e.2 else d) l := by
      intro e l; simp [lastData]
    cases hs : stripPrefix r c.1 with
    | some p' =>
      have hc := stripPrefix_some.1 hs
      simp only [relOf, hs, hstep, ih, key]
      cases h : lastCov ch r with
      | some e => rfl
      | none =>
        by_cases hp : p' = []
        · subst hp
          have : c.1 = r := by simpa using hc
          simp [this, walkData]
        · have : stripPrefix c.1 r = none := by
            rw [stripPrefix_none]; rintro ⟨y, hy⟩
            rw [hc] at hy; simp [hp] at hy
          simp [this, hp]
    | none =>
      cases hs2 : stripPrefix c.1 r with
      | none =>
        simp only [relOf, hs, hs2, ih]
        cases h : lastCov ch r with
        | some e => rfl
        | none => simp
      | some r' =>
        simp only [relOf, hs, hs2, List.nil_append, hstep, ih, if_true, key]
        cases h : lastCov ch r with
        | some e => rfl
        | none => simp [hs2]

/-- What the value frozen for change `c` has at `q ++ y`. -/
def frozenAt (cur : Tree) (c : Change) (q y : Path) : Option Kind :=
  match stripPrefix q c.1 with
  | some p' => (match stripPrefix p' y with | some z => content cur c.1 c.2 z | none => none)
  | none =>
    match stripPrefix c.1 q with
    | some r' => content cur q (walkData cur c.1 r' c.2) y
    | none => none

theorem applyStanzas_cons (v : Tree) (e : Path × Tree) (l) :
    applyStanzas v (e :: l) = applyStanzas (v.setAt e.1 e.2) l := rfl

/-- The value a client holds after applying the Delta sent for the changes. -/
theorem applyStanzas_rel (cur : Tree) (q : Path) (ch : List Change) (v : Tree) (y : Path) :
    applyStanzas v ((rel cur [] q ch).map (freezeChange cur q)) y =
      match lastCov ch (q ++ y) with
      | none => v y
      | some c => frozenAt cur c q y := by
  rw [rel_eq]
  induction ch generalizing v with
  | nil => rfl
  | cons c ch ih =>
    simp only [List.filterMap_cons, lastCov]
    cases hs : stripPrefix q c.1 with
    | some p' =>
      have hc := stripPrefix_some.1 hs
      simp only [relOf, hs, List.map_cons, applyStanzas_cons, ih]
      cases h : lastCov ch (q ++ y) with
      | some e => rfl
      | none =>
        simp only [freezeChange, frozenAt, hs, ← hc]
        by_cases hy : p' <+: y
        · obtain ⟨z, rfl⟩ := hy
          have : c.1 <+: q ++ (p' ++ z) := ⟨z, by rw [hc]; simp⟩
          simp [stripPrefix_isSome.2 this, frozenAt, hs]
        · have : ¬ c.1 <+: q ++ y := by rw [hc, List.prefix_append_right_inj]; exact hy
          have h2 : (stripPrefix c.1 (q ++ y)).isSome = false := by
            rw [Bool.eq_false_iff]; simpa [stripPrefix_isSome] using this
          rw [setAt_other _ _ hy]; simp [h2]
    | none =>
      cases hs2 : stripPrefix c.1 q with
      | none =>
        simp only [relOf, hs, hs2, ih]
        cases h : lastCov ch (q ++ y) with
        | some e => rfl
        | none =>
          have : ¬ c.1 <+: q ++ y := by
            intro hp
            rcases List.prefix_or_prefix_of_prefix hp (List.prefix_append q y) with h1 | h1
            · exact stripPrefix_none.1 hs2 h1
            · exact stripPrefix_none.1 hs h1
          have h2 : (stripPrefix c.1 (q ++ y)).isSome = false := by
            rw [Bool.eq_false_iff]; simpa [stripPrefix_isSome] using this
          simp [h2]
      | some r' =>
        have hc := stripPrefix_some.1 hs2
        simp only [relOf, hs, hs2, List.nil_append, List.map_cons, applyStanzas_cons, ih]
        cases h : lastCov ch (q ++ y) with
        | some e => rfl
        | none =>
          have : c.1 <+: q ++ y := ⟨r' ++ y, by rw [hc]; simp⟩
          simp [freezeChange, frozenAt, hs, hs2, stripPrefix_isSome.2 this]

end Verif.Notifier
