import Verif.Spec.Family
/-! Lemmas for C118. -/
namespace Verif.Proofs.Family
open Verif Verif.Family Verif.Spec.Family

mutual
/-- A block that is not in Fault has the children that take part in the same state -/
def Tidy : Block → Prop
  | .mk st laid kids => (st ≠ .fault → KidsIn st laid kids) ∧ KidsTidy laid kids
def KidsIn (st : St) (laid : Bool) : Kids → Prop
  | .nil => True
  | .cons shown stateful c rest => (takes laid shown = true → stateful = true → c.st = st) ∧ KidsIn st laid rest
def KidsTidy (laid : Bool) : Kids → Prop
  | .nil => True
  | .cons shown stateful c rest => (takes laid shown = true → stateful = true → Tidy c) ∧ KidsTidy laid rest
end

mutual
/-- A block that is Disabled has the children that take part Disabled; this of all blocks, hidden or not -/
def Closed : Block → Prop
  | .mk st laid kids => (st = .disabled → KidsIn st laid kids) ∧ KidsClosed kids
def KidsClosed : Kids → Prop
  | .nil => True
  | .cons _ _ c rest => Closed c ∧ KidsClosed rest
end

theorem takes_iff {laid shown : Bool} : takes laid shown = true ↔ laid = false ∨ shown = true := by
  cases laid <;> cases shown <;> simp [takes]

theorem not_writeable {op : Op} {st : St} (h : op.writeable st = false) : st = op.target := by
  cases op <;> cases st <;> simp_all [Op.writeable, Op.target]

theorem target_ne {op : Op} : op.target ≠ .fault := by cases op <;> simp [Op.target]

theorem call_st (op : Op) (o : Oracle) (p : List Nat) (b : Block) :
    (b.call op o p).1.st = if (b.call op o p).2 then op.target else .fault := by
  cases b with
  | mk st laid kids =>
    simp only [Block.call, Block.st]
    split
    · rename_i h
      simp only [h, Bool.not_true, Bool.false_eq_true, if_false]
    · rename_i h
      simp only [Bool.not_eq_true] at h
      simp only [h, Bool.not_false, if_true]

/-! ### everything beneath -/

mutual
theorem tidy_shown : ∀ b : Block, Tidy b → b.st ≠ .fault → Shown b.st b
  | .mk st laid kids, h, hst => by
    simp only [Tidy] at h
    exact ⟨rfl, kidsTidy_shown st laid kids hst (h.1 hst) h.2⟩
theorem kidsTidy_shown (st : St) (laid : Bool) : ∀ k : Kids, st ≠ .fault → KidsIn st laid k → KidsTidy laid k → KidsShown st laid k
  | .nil, _, _, _ => trivial
  | .cons shown stateful c rest, hst, h1, h2 => by
    simp only [KidsIn, KidsTidy] at h1 h2
    refine ⟨fun ht hs => ?_, kidsTidy_shown st laid rest hst h1.2 h2.2⟩
    have e := h1.1 (takes_iff.2 ht) hs
    have := tidy_shown c (h2.1 (takes_iff.2 ht) hs) (by rw [e]; exact hst)
    rwa [e] at this
end

mutual
theorem closed_shown : ∀ b : Block, Closed b → b.st = .disabled → Shown .disabled b
  | .mk st laid kids, h, hst => by
    simp only [Closed, Block.st] at h hst
    subst hst
    exact ⟨rfl, kidsClosed_shown laid kids (h.1 rfl) h.2⟩
theorem kidsClosed_shown (laid : Bool) : ∀ k : Kids, KidsIn .disabled laid k → KidsClosed k → KidsShown .disabled laid k
  | .nil, _, _ => trivial
  | .cons shown stateful c rest, h1, h2 => by
    simp only [KidsIn, KidsClosed] at h1 h2
    exact ⟨fun ht hs => closed_shown c h2.1 (h1.1 (takes_iff.2 ht) hs), kidsClosed_shown laid rest h1.2 h2.2⟩
end

mutual
theorem shown_tidy (st : St) : ∀ b : Block, Shown st b → Tidy b
  | .mk s laid kids, h => by
    simp only [Shown] at h
    have := kidsShown_tidy st laid kids h.2
    exact ⟨fun _ => by rw [h.1]; exact this.1, this.2⟩
theorem kidsShown_tidy (st : St) (laid : Bool) : ∀ k : Kids, KidsShown st laid k → KidsIn st laid k ∧ KidsTidy laid k
  | .nil, _ => ⟨trivial, trivial⟩
  | .cons shown stateful c rest, h => by
    simp only [KidsShown] at h
    have := kidsShown_tidy st laid rest h.2
    refine ⟨⟨fun ht hs => ?_, this.1⟩, ⟨fun ht hs => shown_tidy st c (h.1 (takes_iff.1 ht) hs), this.2⟩⟩
    have := h.1 (takes_iff.1 ht) hs
    cases c
    exact this.1
end

/-! ### a call -/

/-- If nothing has raised, the children that take part are in the state aimed at -/
theorem kids_in (op : Op) (o : Oracle) (p : List Nat) (laid : Bool) : ∀ (k : Kids) (i : Nat),
    (k.call op o p laid i).prompt = false → (k.call op o p laid i).late = false →
    KidsIn op.target laid (k.call op o p laid i).all
  | .nil, _, _, _ => trivial
  | .cons shown stateful c rest, i, h1, h2 => by
    simp only [Kids.call] at h1 h2 ⊢
    split at h1
    · rename_i hc
      rw [if_pos hc] at h2
      rw [if_pos hc]
      simp only [Bool.or_eq_false_iff] at h1 h2
      refine ⟨fun _ _ => ?_, kids_in op o p laid rest (i + 1) h1.1 h2.1⟩
      rw [call_st]
      have : (c.call op o (i :: p)).2 = true := by
        cases hl : o.late (i :: p)
        · have := h1.2; simpa [hl] using this
        · have := h2.2; simpa [hl] using this
      simp [this]
    · rename_i hc
      rw [if_neg hc] at h2
      rw [if_neg hc]
      refine ⟨fun ht hs => ?_, kids_in op o p laid rest (i + 1) h1 h2⟩
      apply not_writeable
      simpa [ht, hs] using hc

mutual
theorem call_tidy (op : Op) (o : Oracle) : ∀ (b : Block) (p : List Nat), Tidy b → Tidy (b.call op o p).1
  | .mk st laid kids, p, h => by
    simp only [Tidy] at h
    have hk := kids_tidy op o p laid kids 0 h.2
    simp only [Block.call]
    cases hs : (o.own p || (kids.call op o p laid 0).prompt)
    · simp only [Bool.false_eq_true, if_false, Bool.false_or]
      refine ⟨fun hst => ?_, hk.1⟩
      simp only [Bool.or_eq_false_iff] at hs
      cases hl : (kids.call op o p laid 0).late
      · simp only [Bool.false_eq_true, if_false]
        exact kids_in op o p laid kids 0 hs.2 hl
      · simp [hl] at hst
    · simp only [if_true, Bool.true_or]
      exact ⟨fun h => absurd rfl h, hk.2⟩
theorem kids_tidy (op : Op) (o : Oracle) (p : List Nat) (laid : Bool) : ∀ (k : Kids) (i : Nat), KidsTidy laid k →
    KidsTidy laid (k.call op o p laid i).all ∧ KidsTidy laid (k.call op o p laid i).part
  | .nil, _, _ => ⟨trivial, trivial⟩
  | .cons shown stateful c rest, i, h => by
    simp only [KidsTidy] at h
    have hr := kids_tidy op o p laid rest (i + 1) h.2
    simp only [Kids.call]
    split
    · have hc : takes laid shown = true → stateful = true → Tidy (c.call op o (i :: p)).1 :=
        fun ht hs => call_tidy op o c (i :: p) (h.1 ht hs)
      refine ⟨⟨hc, hr.1⟩, ⟨fun ht hs => ?_, hr.2⟩⟩
      split
      · exact h.1 ht hs
      · exact hc ht hs
    · exact ⟨⟨h.1, hr.1⟩, ⟨h.1, hr.2⟩⟩
end

mutual
theorem call_closed (op : Op) (o : Oracle) : ∀ (b : Block) (p : List Nat), Closed b → Closed (b.call op o p).1
  | .mk st laid kids, p, h => by
    simp only [Closed] at h
    have hk := kids_closed op o p laid kids 0 h.2
    simp only [Block.call]
    cases hs : (o.own p || (kids.call op o p laid 0).prompt)
    · simp only [Bool.false_eq_true, if_false, Bool.false_or]
      refine ⟨fun hst => ?_, hk.1⟩
      simp only [Bool.or_eq_false_iff] at hs
      cases hl : (kids.call op o p laid 0).late
      · simp only [hl, Bool.false_eq_true, if_false] at hst ⊢
        exact kids_in op o p laid kids 0 hs.2 hl
      · simp [hl] at hst
    · simp only [if_true, Bool.true_or]
      exact ⟨fun h => by simp at h, hk.2⟩
theorem kids_closed (op : Op) (o : Oracle) (p : List Nat) (laid : Bool) : ∀ (k : Kids) (i : Nat), KidsClosed k →
    KidsClosed (k.call op o p laid i).all ∧ KidsClosed (k.call op o p laid i).part
  | .nil, _, _ => ⟨trivial, trivial⟩
  | .cons shown stateful c rest, i, h => by
    simp only [KidsClosed] at h
    have hr := kids_closed op o p laid rest (i + 1) h.2
    simp only [Kids.call]
    split
    · have hc := call_closed op o c (i :: p) h.1
      refine ⟨⟨hc, hr.1⟩, ⟨?_, hr.2⟩⟩
      split
      · exact h.1
      · exact hc
    · exact ⟨⟨h.1, hr.1⟩, ⟨h.1, hr.2⟩⟩
end

mutual
/-- Nothing raises of its own, so nothing does -/
theorem call_well (op : Op) {o : Oracle} (ho : Well o) : ∀ (b : Block) (p : List Nat), (b.call op o p).2 = true
  | .mk st laid kids, p => by
    have := kids_well op ho p laid kids 0
    simp [Block.call, ho p, this.1, this.2]
theorem kids_well (op : Op) {o : Oracle} (ho : Well o) (p : List Nat) (laid : Bool) : ∀ (k : Kids) (i : Nat),
    (k.call op o p laid i).prompt = false ∧ (k.call op o p laid i).late = false
  | .nil, _ => ⟨rfl, rfl⟩
  | .cons shown stateful c rest, i => by
    have hr := kids_well op ho p laid rest (i + 1)
    have hc := call_well op ho c (i :: p)
    simp only [Kids.call]
    split <;> simp [hr.1, hr.2, hc]
end

mutual
theorem well_shown {o : Oracle} (ho : Well o) : ∀ (b : Block) (p : List Nat), Closed b → Shown .disabled (b.call .disable o p).1
  | .mk st laid kids, p, h => by
    simp only [Closed] at h
    have hw := kids_well .disable ho p laid kids 0
    simp only [Block.call, ho p, hw.1, hw.2, Bool.or_self, Bool.false_eq_true, if_false]
    exact ⟨rfl, kids_well_shown ho p laid kids 0 h.2⟩
theorem kids_well_shown {o : Oracle} (ho : Well o) (p : List Nat) (laid : Bool) : ∀ (k : Kids) (i : Nat), KidsClosed k →
    KidsShown .disabled laid (k.call .disable o p laid i).all
  | .nil, _, _ => trivial
  | .cons shown stateful c rest, i, h => by
    simp only [KidsClosed] at h
    have hr := kids_well_shown ho p laid rest (i + 1) h.2
    simp only [Kids.call]
    split
    · exact ⟨fun _ _ => well_shown ho c (i :: p) h.1, hr⟩
    · rename_i hc
      refine ⟨fun ht hs => ?_, hr⟩
      have := takes_iff.2 ht
      have e := not_writeable (op := .disable) (st := c.st) (by simpa [this, hs] using hc)
      exact closed_shown c h.1 e
end

/-! ### what is hidden -/

mutual
theorem kept_refl : ∀ b : Block, Kept b b
  | .mk _ laid kids => ⟨rfl, kidsKept_refl laid kids⟩
theorem kidsKept_refl (laid : Bool) : ∀ k : Kids, KidsKept laid k k
  | .nil => trivial
  | .cons _ _ c rest => ⟨rfl, rfl, kept_refl c, fun _ _ => rfl, kidsKept_refl laid rest⟩
end

mutual
theorem call_kept (op : Op) (o : Oracle) : ∀ (b : Block) (p : List Nat), Kept b (b.call op o p).1
  | .mk st laid kids, p => by
    have := kids_kept op o p laid kids 0
    simp only [Block.call]
    refine ⟨rfl, ?_⟩
    split
    · exact this.2
    · exact this.1
theorem kids_kept (op : Op) (o : Oracle) (p : List Nat) (laid : Bool) : ∀ (k : Kids) (i : Nat),
    KidsKept laid k (k.call op o p laid i).all ∧ KidsKept laid k (k.call op o p laid i).part
  | .nil, _ => ⟨trivial, trivial⟩
  | .cons shown stateful c rest, i => by
    have hr := kids_kept op o p laid rest (i + 1)
    have hc := call_kept op o c (i :: p)
    simp only [Kids.call]
    split
    · rename_i ht
      simp only [Bool.and_eq_true, takes_iff] at ht
      have hno : laid = true → shown = false → False := by
        intro h1 h2
        simp [h1, h2] at ht
      refine ⟨⟨rfl, rfl, hc, fun h1 h2 => (hno h1 h2).elim, hr.1⟩, ⟨rfl, rfl, ?_, fun h1 h2 => (hno h1 h2).elim, hr.2⟩⟩
      split
      · exact kept_refl c
      · exact hc
    · exact ⟨⟨rfl, rfl, kept_refl c, fun _ _ => rfl, hr.1⟩, ⟨rfl, rfl, kept_refl c, fun _ _ => rfl, hr.2⟩⟩
end

mutual
theorem kept_trans : ∀ a b c : Block, Kept a b → Kept b c → Kept a c
  | .mk _ l ka, .mk _ l' kb, .mk _ l'' kc, h1, h2 => by
    simp only [Kept] at h1 h2
    obtain ⟨rfl, h1⟩ := h1
    obtain ⟨rfl, h2⟩ := h2
    exact ⟨rfl, kidsKept_trans _ ka kb kc h1 h2⟩
theorem kidsKept_trans (laid : Bool) : ∀ a b c : Kids, KidsKept laid a b → KidsKept laid b c → KidsKept laid a c
  | .nil, .nil, .nil, _, _ => trivial
  | .cons s f x r, .cons s' f' x' r', .cons s'' f'' x'' r'', h1, h2 => by
    simp only [KidsKept] at h1 h2
    obtain ⟨rfl, rfl, h3, h4, h5⟩ := h1
    obtain ⟨rfl, rfl, h6, h7, h8⟩ := h2
    exact ⟨rfl, rfl, kept_trans x x' x'' h3 h6, fun h h' => (h7 h h').trans (h4 h h'), kidsKept_trans laid r r' r'' h5 h8⟩
  | .nil, .nil, .cons _ _ _ _, _, h => by simp [KidsKept] at h
  | .nil, .cons _ _ _ _, _, h, _ => by simp [KidsKept] at h
  | .cons _ _ _ _, .nil, _, h, _ => by simp [KidsKept] at h
  | .cons _ _ _ _, .cons _ _ _ _, .nil, _, h => by simp [KidsKept] at h
end

/-! ### from the start -/

mutual
theorem ready_closed : ∀ b : Block, AllReady b → Closed b ∧ Shown .ready b
  | .mk st laid kids, h => by
    simp only [AllReady] at h
    obtain ⟨rfl, h⟩ := h
    have := kidsReady_closed laid kids h
    exact ⟨⟨fun h => by simp at h, this.1⟩, ⟨rfl, this.2⟩⟩
theorem kidsReady_closed (laid : Bool) : ∀ k : Kids, KidsReady k → KidsClosed k ∧ KidsShown .ready laid k
  | .nil, _ => ⟨trivial, trivial⟩
  | .cons s f c rest, h => by
    simp only [KidsReady] at h
    have h1 := ready_closed c h.1
    have h2 := kidsReady_closed laid rest h.2
    exact ⟨⟨h1.1, h2.1⟩, ⟨fun _ _ => h1.2, h2.2⟩⟩
end

theorem setShown_closed (f : Nat → Bool) : ∀ (k : Kids) (i : Nat), KidsClosed k → KidsClosed (k.setShown f i)
  | .nil, _, _ => trivial
  | .cons _ _ _ rest, i, h => ⟨h.1, setShown_closed f rest (i + 1) h.2⟩

theorem layout_closed (f : Nat → Bool) {b : Block} (h : Closed b) : Closed (b.putLayout f) := by
  cases b with
  | mk st laid kids =>
    cases st with
    | ready =>
      simp only [Closed] at h
      exact ⟨fun h => by simp at h, setShown_closed f kids 0 h.2⟩
    | disabled => exact h
    | fault => exact h

theorem run_tidy : ∀ (es : List Ev) {b : Block}, (∀ e ∈ es, TopCalls e) → Tidy b → Tidy (b.run es)
  | [], _, _, h => h
  | e :: es, b, ht, h => by
    refine run_tidy es (fun e he => ht e (List.mem_cons_of_mem _ he)) ?_
    have he := ht e (by simp)
    cases e with
    | call p op o =>
      have hp : p = [] := he
      subst hp
      simp only [Block.step, Block.at, Block.outside]
      split
      · exact call_tidy op o b [] h
      · exact h
    | layout p f => exact he.elim

theorem run_closed : ∀ (es : List Ev) {b : Block}, (∀ e ∈ es, TopOnly e) → Closed b → Closed (b.run es)
  | [], _, _, h => h
  | e :: es, b, ht, h => by
    refine run_closed es (fun e he => ht e (List.mem_cons_of_mem _ he)) ?_
    have he := ht e (by simp)
    cases e with
    | call p op o =>
      have hp : p = [] := he
      subst hp
      simp only [Block.step, Block.at, Block.outside]
      split
      · exact call_closed op o b [] h
      · exact h
    | layout p f =>
      have hp : p = [] := he
      subst hp
      simp only [Block.step, Block.at]
      exact layout_closed f h

end Verif.Proofs.Family
