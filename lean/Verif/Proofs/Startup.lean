import Verif.Spec.Startup
/-! Lemmas for C117. -/
namespace Verif.Proofs.Startup
open Verif Verif.Startup Verif.Spec.Startup

structure Inv (blocks : Nat → Option Block) (news : List Nat) (w : World) : Prop where
  same : ∀ i b, w.blocks i = some b → ∃ b0, blocks i = some b0 ∧ b.kids = b0.kids ∧ b.ownGood = b0.ownGood ∧ b.restGood = b0.restGood
  there : ∀ i b0, blocks i = some b0 → ∃ b, w.blocks i = some b
  old : ∀ i, i ∉ news → w.blocks i = blocks i
  shape : ∃ (l : List Nat) (ps : List Task), w.queue = l.map Task.init ++ ps ∧ l.Nodup ∧ (∀ i ∈ l, i ∈ news) ∧ ∀ t ∈ ps, ∃ i k, t = .part i k ∧ i ∈ news
  unbegun : ∀ i b, i ∈ news → w.blocks i = some b → (b.st = .disabled ↔ .init i ∈ w.queue)
  front : ∀ j, .init j ∈ w.queue → ∀ i b, i ∈ news → w.blocks i = some b → ∀ (k : Nat) (p : PSt), b.parts[k]? = some p → p = PSt.idle
  len : ∀ i b, i ∈ news → w.blocks i = some b → b.st ≠ .disabled → b.parts.length = b.kids.length
  idle : ∀ i b, i ∈ news → w.blocks i = some b → b.st = .resetting → ∀ (k : Nat), b.parts[k]? = some PSt.idle → .part i k ∈ w.queue
  done : ∀ i b, i ∈ news → w.blocks i = some b → ∀ (k : Nat) (kid : Kid), b.parts[k]? = some PSt.done → b.kids[k]? = some kid →
    ∃ c, w.blocks kid.id = some c ∧ (kid.stateful = true → c.st = .ready)
  own : ∀ i b, i ∈ news → w.blocks i = some b → b.st ≠ .disabled → b.own = true → b.ownGood = true
  ready : ∀ i b, i ∈ news → w.blocks i = some b → b.st = .ready → b.laid = true ∧ Good blocks news i ∧ b.parts.all (· = .done) = true
  laid : ∀ i b, i ∈ news → w.blocks i = some b → b.laid = true → b.st = .ready

variable {blocks : Nat → Option Block} {news : List Nat} {w : World}

theorem start_inv (h : Fresh blocks news) : Inv blocks news (World.start blocks news) := by
  obtain ⟨hn, -, hf⟩ := h
  have hf' : ∀ i b, i ∈ news → blocks i = some b → b.st = .disabled ∧ b.laid = false ∧ b.parts = [] := by
    intro i b hi hb
    obtain ⟨b', h1, h2⟩ := hf i hi
    rw [hb] at h1
    cases h1
    exact h2
  refine ⟨fun i b hb => ⟨b, hb, rfl, rfl, rfl⟩, fun i b hb => ⟨b, hb⟩, fun _ _ => rfl,
    ⟨news, [], by simp [World.start], hn, fun _ h => h, by simp⟩, ?_, ?_, ?_, ?_, ?_, ?_, ?_, ?_⟩
  · intro i b hi hb
    simp [World.start, (hf' i b hi hb).1, hi]
  · intro j _ i b hi hb k p hp
    simp [(hf' i b hi hb).2.2] at hp
  · intro i b hi hb h
    exact absurd (hf' i b hi hb).1 h
  · intro i b hi hb h
    simp [(hf' i b hi hb).1] at h
  · intro i b hi hb k kid hk
    simp [(hf' i b hi hb).2.2] at hk
  · intro i b hi hb h
    exact absurd (hf' i b hi hb).1 h
  · intro i b hi hb h
    simp [(hf' i b hi hb).1] at h
  · intro i b hi hb h
    simp [(hf' i b hi hb).2.1] at h

/-- A block that is starting changes, and perhaps a task of one of its parts is taken from the queue -/
theorem put_inv (hI : Inv blocks news w) {i : Nat} {b b' : Block} {q' : List Task} (hi : i ∈ news)
    (hb : w.blocks i = some b) (hr : b.st = .resetting)
    (hs : b'.kids = b.kids ∧ b'.ownGood = b.ownGood ∧ b'.restGood = b.restGood)
    (hst : b'.st ≠ .disabled) (hlen : b'.parts.length = b.parts.length)
    (hq : q' = w.queue ∨ ∃ k, w.queue = .part i k :: q')
    (hidle : b'.st = .resetting → ∀ (k : Nat), b'.parts[k]? = some PSt.idle → .part i k ∈ q')
    (hfront : b'.parts = b.parts ∨ ∀ j, .init j ∉ w.queue)
    (hdone : ∀ (k : Nat) (kid : Kid), b'.parts[k]? = some PSt.done → b'.kids[k]? = some kid →
      ∃ c, w.blocks kid.id = some c ∧ (kid.stateful = true → c.st = .ready))
    (hown : b'.own = true → b'.ownGood = true)
    (hready : b'.st = .ready → b'.laid = true ∧ Good blocks news i ∧ b'.parts.all (· = .done) = true)
    (hlaid : b'.laid = true → b'.st = .ready) :
    Inv blocks news ⟨fun j => if j = i then some b' else w.blocks j, q'⟩ := by
  have hinit : ∀ j, .init j ∈ q' ↔ .init j ∈ w.queue := by
    intro j
    rcases hq with rfl | ⟨k, hk⟩
    · rfl
    · simp [hk]
  refine ⟨?_, ?_, ?_, ?_, ?_, ?_, ?_, ?_, ?_, ?_, ?_, ?_⟩
  · intro j c hc
    by_cases hj : j = i
    · subst hj
      simp only [if_true, Option.some.injEq] at hc
      subst hc
      obtain ⟨b0, h1, h2, h3, h4⟩ := hI.same j b hb
      exact ⟨b0, h1, hs.1.trans h2, hs.2.1.trans h3, hs.2.2.trans h4⟩
    · simp only [hj, if_false] at hc
      exact hI.same j c hc
  · intro j b0 h0
    by_cases hj : j = i
    · exact ⟨b', by simp [hj]⟩
    · simpa [hj] using hI.there j b0 h0
  · intro j hj
    have : j ≠ i := fun h => hj (h ▸ hi)
    simpa [this] using hI.old j hj
  · obtain ⟨l, ps, h1, h2, h3, h4⟩ := hI.shape
    rcases hq with rfl | ⟨k, hk⟩
    · exact ⟨l, ps, h1, h2, h3, h4⟩
    · rw [hk] at h1
      cases l with
      | nil =>
        simp only [List.map_nil, List.nil_append] at h1
        exact ⟨[], q', by simp, by simp, by simp, fun t ht => h4 t (by rw [← h1]; exact List.mem_cons_of_mem _ ht)⟩
      | cons a l => simp at h1
  · intro j c hj hc
    rw [hinit]
    by_cases hji : j = i
    · subst hji
      simp only [if_true, Option.some.injEq] at hc
      subst hc
      have := hI.unbegun j b hj hb
      rw [hr] at this
      simp only [reduceCtorEq, false_iff] at this
      simp [hst, this]
    · simp only [hji, if_false] at hc
      exact hI.unbegun j c hj hc
  · intro j hj m c hm hc k p hp
    rw [hinit] at hj
    by_cases hmi : m = i
    · subst hmi
      simp only [if_true, Option.some.injEq] at hc
      subst hc
      rcases hfront with h | h
      · rw [h] at hp
        exact hI.front j hj m b hi hb k p hp
      · exact absurd hj (h j)
    · simp only [hmi, if_false] at hc
      exact hI.front j hj m c hm hc k p hp
  · intro j c hj hc hd
    by_cases hji : j = i
    · subst hji
      simp only [if_true, Option.some.injEq] at hc
      subst hc
      rw [hlen, hs.1]
      exact hI.len j b hj hb (by simp [hr])
    · simp only [hji, if_false] at hc
      exact hI.len j c hj hc hd
  · intro j c hj hc hd k hk
    by_cases hji : j = i
    · subst hji
      simp only [if_true, Option.some.injEq] at hc
      subst hc
      exact hidle hd k hk
    · simp only [hji, if_false] at hc
      have := hI.idle j c hj hc hd k hk
      rcases hq with rfl | ⟨k', hk'⟩
      · exact this
      · rw [hk'] at this
        simp only [List.mem_cons, Task.part.injEq] at this
        rcases this with h | h
        · exact absurd h.1 hji
        · exact h
  · intro j c hj hc k kid hk hkid
    have hold : ∃ c, w.blocks kid.id = some c ∧ (kid.stateful = true → c.st = .ready) := by
      by_cases hji : j = i
      · subst hji
        simp only [if_true, Option.some.injEq] at hc
        subst hc
        exact hdone k kid hk hkid
      · simp only [hji, if_false] at hc
        exact hI.done j c hj hc k kid hk hkid
    obtain ⟨d, h1, h2⟩ := hold
    by_cases hki : kid.id = i
    · rw [hki, hb] at h1
      cases h1
      refine ⟨b', by simp [hki], fun h => ?_⟩
      have := h2 h
      simp [hr] at this
    · exact ⟨d, by simp [hki, h1], h2⟩
  · intro j c hj hc hd ho
    by_cases hji : j = i
    · subst hji
      simp only [if_true, Option.some.injEq] at hc
      subst hc
      exact hown ho
    · simp only [hji, if_false] at hc
      exact hI.own j c hj hc hd ho
  · intro j c hj hc hd
    by_cases hji : j = i
    · subst hji
      simp only [if_true, Option.some.injEq] at hc
      subst hc
      exact hready hd
    · simp only [hji, if_false] at hc
      exact hI.ready j c hj hc hd
  · intro j c hj hc hd
    by_cases hji : j = i
    · subst hji
      simp only [if_true, Option.some.injEq] at hc
      subst hc
      exact hlaid hd
    · simp only [hji, if_false] at hc
      exact hI.laid j c hj hc hd

theorem not_laid (hI : Inv blocks news w) {i : Nat} {b : Block} (hi : i ∈ news) (hb : w.blocks i = some b)
    (hr : b.st = .resetting) : b.laid = false := by
  cases h : b.laid
  · rfl
  · have := hI.laid i b hi hb h
    simp [hr] at this

/-- A task of a part is taken from the queue, and nothing else changes -/
theorem pop_inv (hI : Inv blocks news w) {i k : Nat} {q : List Task} (hq : w.queue = .part i k :: q)
    (hn : ∀ b, w.blocks i = some b → i ∈ news → b.st = .resetting → b.parts[k]? ≠ some .idle) :
    Inv blocks news { w with queue := q } := by
  have hinit : ∀ j, .init j ∈ q ↔ .init j ∈ w.queue := by intro j; simp [hq]
  refine ⟨hI.same, hI.there, hI.old, ?_, ?_, ?_, hI.len, ?_, hI.done, hI.own, hI.ready, hI.laid⟩
  · obtain ⟨l, ps, h1, h2, h3, h4⟩ := hI.shape
    rw [hq] at h1
    cases l with
    | nil =>
      simp only [List.map_nil, List.nil_append] at h1
      exact ⟨[], q, by simp, by simp, by simp, fun t ht => h4 t (by rw [← h1]; exact List.mem_cons_of_mem _ ht)⟩
    | cons a l => simp at h1
  · intro j c hj hc
    show _ ↔ _ ∈ q
    rw [hinit]
    exact hI.unbegun j c hj hc
  · intro j hj
    exact hI.front j ((hinit j).1 hj)
  · intro j c hj hc hd k' hk
    have := hI.idle j c hj hc hd k' hk
    rw [hq] at this
    simp only [List.mem_cons, Task.part.injEq] at this
    rcases this with ⟨rfl, rfl⟩ | h
    · exact absurd hk (hn c hc hj hd)
    · exact h

theorem fail_inv (hI : Inv blocks news w) {i : Nat} {b : Block} {q' : List Task} (hi : i ∈ news)
    (hb : w.blocks i = some b) (hr : b.st = .resetting) (hq : q' = w.queue ∨ ∃ k, w.queue = .part i k :: q') :
    Inv blocks news (World.fail { w with queue := q' } i b) := by
  refine put_inv hI hi hb hr ⟨rfl, rfl, rfl⟩ (by simp) rfl hq (by simp) (.inl rfl) (hI.done i b hi hb)
    (hI.own i b hi hb (by simp [hr])) (by simp) ?_
  simp [not_laid hI hi hb hr]

theorem look_inv (hI : Inv blocks news w) {i k : Nat} {b : Block} {kid : Kid} {q' : List Task} (hi : i ∈ news)
    (hb : w.blocks i = some b) (hk : b.kids[k]? = some kid) (hnq : ∀ j, .init j ∉ w.queue)
    (hq : (q' = w.queue ∧ b.parts[k]? = some .waiting) ∨ w.queue = .part i k :: q') :
    Inv blocks news (World.look { w with queue := q' } i b k kid) := by
  have hq2 : q' = w.queue ∨ ∃ k, w.queue = .part i k :: q' := by
    rcases hq with h | h
    · exact .inl h.1
    · exact .inr ⟨k, h⟩
  unfold World.look
  split
  · rename_i hr
    rcases hq with h | h
    · rw [h.1]; exact hI
    · exact pop_inv hI h fun c hc _ hr' => by rw [hb] at hc; cases hc; exact absurd hr' hr
  · rename_i hr
    have hr : b.st = .resetting := by simpa using hr
    have hlen := hI.len i b hi hb (by simp [hr])
    have key : ∀ p, p ≠ .idle → (p = .done → ∃ c, w.blocks kid.id = some c ∧ (kid.stateful = true → c.st = .ready)) →
        Inv blocks news (World.put { w with queue := q' } i { b with parts := b.parts.set k p }) := by
      intro p hp hd
      refine put_inv hI hi hb hr ⟨rfl, rfl, rfl⟩ (by simp [hr]) (by simp) hq2 ?_ (.inr hnq) ?_
        (hI.own i b hi hb (by simp [hr])) (by simp [hr]) (by simp [not_laid hI hi hb hr])
      · intro _ k' hk'
        simp only [List.getElem?_set] at hk'
        split at hk'
        · split at hk'
          · simp only [Option.some.injEq] at hk'; exact absurd hk' hp
          · simp at hk'
        · rename_i hne
          have := hI.idle i b hi hb hr k' hk'
          rcases hq with h | h
          · rw [h.1]; exact this
          · rw [h] at this
            simp only [List.mem_cons, Task.part.injEq, true_and] at this
            rcases this with h' | h'
            · exact absurd h'.symm hne
            · exact h'
      · intro k' kid' hk' hkid'
        simp only [List.getElem?_set] at hk'
        split at hk'
        · rename_i he
          split at hk'
          · simp only [Option.some.injEq] at hk'
            subst he
            simp only [hk, Option.some.injEq] at hkid'
            subst hkid'
            exact hd hk'
          · simp at hk'
        · exact hI.done i b hi hb k' kid' hk' hkid'
    split
    · exact fail_inv hI hi hb hr hq2
    · rename_i c hc
      split
      · rename_i hs
        exact key .done (by simp) fun _ => ⟨c, hc, fun h => by simp [h] at hs⟩
      · split
        · rename_i hr'
          exact key .done (by simp) fun _ => ⟨c, hc, fun _ => hr'⟩
        · exact key .waiting (by simp) (by simp)
        · exact fail_inv hI hi hb hr hq2
        · exact fail_inv hI hi hb hr hq2

theorem waiting_front (hI : Inv blocks news w) {i k : Nat} {b : Block} (hi : i ∈ news) (hb : w.blocks i = some b)
    (hk : b.parts[k]? = some .waiting) : ∀ j, .init j ∉ w.queue := by
  intro j hj
  have := hI.front j hj i b hi hb k _ hk
  cases this

theorem begin_inv (hf : Fresh blocks news) (hI : Inv blocks news w) {i : Nat} {b : Block} {q : List Task}
    (hb : w.blocks i = some b) (hq : w.queue = .init i :: q) :
    Inv blocks news (World.begin { w with queue := q } i b) := by
  obtain ⟨l, ps, h1, h2, h3, h4⟩ := hI.shape
  have hl : ∃ l', l = i :: l' ∧ q = l'.map .init ++ ps := by
    rw [hq] at h1
    cases l with
    | nil =>
      simp only [List.map_nil, List.nil_append] at h1
      obtain ⟨a, k, ht, -⟩ := h4 (.init i) (by rw [← h1]; simp)
      cases ht
    | cons a l =>
      simp only [List.map_cons, List.cons_append, List.cons.injEq, Task.init.injEq] at h1
      exact ⟨l, by rw [h1.1], h1.2⟩
  obtain ⟨l', rfl, hql⟩ := hl
  have hi : i ∈ news := h3 i (by simp)
  have hnin : i ∉ l' := (List.nodup_cons.1 h2).1
  have hd : b.st = .disabled := (hI.unbegun i b hi hb).2 (by simp [hq])
  have hqi : ∀ j, .init j ∈ q ↔ j ∈ l' := by
    intro j
    rw [hql]
    simp only [List.mem_append, List.mem_map, Task.init.injEq, exists_eq_right]
    constructor
    · rintro (h | h)
      · exact h
      · obtain ⟨a, k, ht, -⟩ := h4 _ h
        cases ht
    · exact .inl
  have hqj : ∀ j, j ≠ i → (.init j ∈ q ↔ .init j ∈ w.queue) := by
    intro j hj
    simp [hq, hj]
  have hnew : ∀ j, (Task.init j ∈ q ++ (List.range b.kids.length).map (Task.part i)) ↔ .init j ∈ q := by
    intro j; simp
  have hbq : ∀ j, .init j ∈ q → Task.init j ∈ w.queue := fun j h => by simp [hq, h]
  unfold World.begin World.put
  refine ⟨?_, ?_, ?_, ?_, ?_, ?_, ?_, ?_, ?_, ?_, ?_, ?_⟩
  · intro j c hc
    by_cases hj : j = i
    · subst hj
      simp only [if_true, Option.some.injEq] at hc
      subst hc
      exact hI.same j b hb
    · simp only [hj, if_false] at hc
      exact hI.same j c hc
  · intro j b0 h0
    by_cases hj : j = i
    · exact ⟨_, by simp [hj]; rfl⟩
    · simpa [hj] using hI.there j b0 h0
  · intro j hj
    have : j ≠ i := fun h => hj (h ▸ hi)
    simpa [this] using hI.old j hj
  · refine ⟨l', ps ++ (List.range b.kids.length).map (.part i), ?_, (List.nodup_cons.1 h2).2,
      fun j hj => h3 j (List.mem_cons_of_mem _ hj), ?_⟩
    · show q ++ _ = _
      rw [hql, List.append_assoc]
    · intro t ht
      rcases List.mem_append.1 ht with h | h
      · exact h4 t h
      · obtain ⟨k, -, rfl⟩ := List.mem_map.1 h
        exact ⟨i, k, rfl, hi⟩
  · intro j c hj hc
    show _ ↔ Task.init j ∈ q ++ _
    rw [hnew]
    by_cases hji : j = i
    · subst hji
      simp only [if_true, Option.some.injEq] at hc
      subst hc
      simp [hqi, hnin]
    · simp only [hji, if_false] at hc
      rw [hqj j hji]
      exact hI.unbegun j c hj hc
  · intro j hj m c hm hc k p hp
    have hj : Task.init j ∈ q := (hnew j).1 hj
    by_cases hmi : m = i
    · subst hmi
      simp only [if_true, Option.some.injEq] at hc
      subst hc
      simp only [List.getElem?_map, Option.map_eq_some_iff] at hp
      obtain ⟨_, -, h⟩ := hp
      exact h.symm
    · simp only [hmi, if_false] at hc
      exact hI.front j (hbq j hj) m c hm hc k p hp
  · intro j c hj hc hd
    by_cases hji : j = i
    · subst hji
      simp only [if_true, Option.some.injEq] at hc
      subst hc
      simp
    · simp only [hji, if_false] at hc
      exact hI.len j c hj hc hd
  · intro j c hj hc hd k hk
    show Task.part j k ∈ q ++ _
    by_cases hji : j = i
    · subst hji
      simp only [if_true, Option.some.injEq] at hc
      subst hc
      refine List.mem_append.2 (.inr (List.mem_map.2 ⟨k, ?_, rfl⟩))
      simp only [List.getElem?_map, Option.map_eq_some_iff] at hk
      obtain ⟨x, hx, -⟩ := hk
      exact List.mem_range.2 (List.getElem?_eq_some_iff.1 hx).1
    · simp only [hji, if_false] at hc
      have := hI.idle j c hj hc hd k hk
      rw [hq] at this
      exact List.mem_append.2 (.inl (by simpa using this))
  · intro j c hj hc k kid hk hkid
    by_cases hji : j = i
    · subst hji
      simp only [if_true, Option.some.injEq] at hc
      subst hc
      simp at hk
    · simp only [hji, if_false] at hc
      obtain ⟨d, h5, h6⟩ := hI.done j c hj hc k kid hk hkid
      by_cases hki : kid.id = i
      · rw [hki, hb] at h5
        cases h5
        refine ⟨_, by simp [hki]; rfl, fun h => ?_⟩
        have := h6 h
        simp [hd] at this
      · exact ⟨d, by simp [hki, h5], h6⟩
  · intro j c hj hc hd ho
    by_cases hji : j = i
    · subst hji
      simp only [if_true, Option.some.injEq] at hc
      subst hc
      simp at ho
    · simp only [hji, if_false] at hc
      exact hI.own j c hj hc hd ho
  · intro j c hj hc hd
    by_cases hji : j = i
    · subst hji
      simp only [if_true, Option.some.injEq] at hc
      subst hc
      simp at hd
    · simp only [hji, if_false] at hc
      exact hI.ready j c hj hc hd
  · intro j c hj hc hl
    by_cases hji : j = i
    · subst hji
      simp only [if_true, Option.some.injEq] at hc
      subst hc
      have := hI.laid j b hj hb hl
      simp [hd] at this
    · simp only [hji, if_false] at hc
      exact hI.laid j c hj hc hl

theorem in_news (hf : Fresh blocks news) (hI : Inv blocks news w) {i : Nat} {b : Block} (hb : w.blocks i = some b)
    (hr : b.st = .resetting) : i ∈ news := by
  by_cases h : i ∈ news
  · exact h
  · have := hI.old i h
    exact absurd hr (hf.2.1 i b h (by rw [← this]; exact hb))

theorem head_part (hI : Inv blocks news w) {i k : Nat} {q : List Task} (hq : w.queue = .part i k :: q) :
    i ∈ news ∧ ∀ j, .init j ∉ w.queue := by
  obtain ⟨l, ps, h1, h2, h3, h4⟩ := hI.shape
  rw [hq] at h1
  cases l with
  | nil =>
    simp only [List.map_nil, List.nil_append] at h1
    obtain ⟨a, k', ht, ha⟩ := h4 (.part i k) (by rw [← h1]; simp)
    cases ht
    refine ⟨ha, fun j hj => ?_⟩
    obtain ⟨a', k'', ht, -⟩ := h4 (.init j) (by rw [← h1, ← hq]; exact hj)
    cases ht
  | cons a l => simp at h1

theorem head_init (hI : Inv blocks news w) {i : Nat} {q : List Task} (hq : w.queue = .init i :: q) : i ∈ news := by
  obtain ⟨l, ps, h1, h2, h3, h4⟩ := hI.shape
  rw [hq] at h1
  cases l with
  | nil =>
    simp only [List.map_nil, List.nil_append] at h1
    obtain ⟨a, k', ht, ha⟩ := h4 (.init i) (by rw [← h1]; simp)
    cases ht
  | cons a l =>
    simp only [List.map_cons, List.cons_append, List.cons.injEq, Task.init.injEq] at h1
    exact h3 i (by simp [h1.1])

theorem there' (hf : Fresh blocks news) (hI : Inv blocks news w) {i : Nat} (hi : i ∈ news) : ∃ b, w.blocks i = some b := by
  obtain ⟨b0, h0, -⟩ := hf.2.2 i hi
  exact hI.there i b0 h0

theorem next_inv (hf : Fresh blocks news) (hI : Inv blocks news w) : Inv blocks news w.next := by
  unfold World.next
  split
  · exact hI
  · rename_i i q hq
    obtain ⟨b, hb⟩ := there' hf hI (head_init hI hq)
    simp only [hb]
    exact begin_inv hf hI hb hq
  · rename_i i k q hq
    obtain ⟨hi, hn⟩ := head_part hI hq
    obtain ⟨b, hb⟩ := there' hf hI hi
    simp only [hb]
    split
    · rename_i hk
      refine pop_inv hI hq fun c hc _ hr h => ?_
      rw [hb] at hc
      cases hc
      have := hI.len i b hi hb (by simp [hr])
      have h1 := (List.getElem?_eq_some_iff.1 h).1
      have h2 := List.getElem?_eq_none_iff.1 hk
      omega
    · rename_i kid hk
      exact look_inv hI hi hb hk hn (.inr hq)

theorem step_inv (hf : Fresh blocks news) (hI : Inv blocks news w) (e : Ev) : Inv blocks news (w.step e) := by
  have hwait : ∀ i k t, Inv blocks news (w.wait i k t) := by
    intro i k t
    unfold World.wait
    split
    · exact hI
    · rename_i b hb
      split
      · exact hI
      · rename_i hw
        have hw : b.parts[k]? = some .waiting := by simpa using hw
        split
        · exact hI
        · rename_i kid hk
          split
          · split
            · exact hI
            · rename_i hr
              have hr : b.st = .resetting := by simpa using hr
              exact fail_inv hI (in_news hf hI hb hr) hb hr (.inl rfl)
          · by_cases hr : b.st = .resetting
            · have hi := in_news hf hI hb hr
              exact look_inv hI hi hb hk (waiting_front hI hi hb hw) (.inl ⟨rfl, hw⟩)
            · simpa [World.look, hr] using hI
  cases e with
  | next => exact next_inv hf hI
  | told i k => exact hwait i k false
  | late i k => exact hwait i k true
  | own i =>
    show Inv blocks news (w.own i)
    unfold World.own
    split
    · exact hI
    · rename_i b hb
      split
      · exact hI
      · rename_i hc
        simp only [not_or, Bool.not_eq_true, ne_eq, Decidable.not_not] at hc
        have hi := in_news hf hI hb hc.1
        split
        · rename_i hg
          exact put_inv hI hi hb hc.1 ⟨rfl, rfl, rfl⟩ (by simp [hc.1]) rfl (.inl rfl) (hI.idle i b hi hb) (.inl rfl)
            (hI.done i b hi hb) (fun _ => hg) (by simp [hc.1]) (by simp [not_laid hI hi hb hc.1])
        · exact fail_inv hI hi hb hc.1 (.inl rfl)
  | rest i =>
    show Inv blocks news (w.rest i)
    unfold World.rest
    split
    · exact hI
    · rename_i b hb
      split
      · exact hI
      · rename_i hc
        simp only [not_or, Bool.not_eq_true, ne_eq, Decidable.not_not, Bool.not_eq_true', Bool.not_eq_false] at hc
        obtain ⟨hr, ho, hall⟩ := hc
        have hi := in_news hf hI hb hr
        split
        · rename_i hg
          refine put_inv hI hi hb hr ⟨rfl, rfl, rfl⟩ (by simp) rfl (.inl rfl) (by simp) (.inl rfl)
            (hI.done i b hi hb) (hI.own i b hi hb (by simp [hr])) (fun _ => ⟨rfl, ?_, hall⟩) (by simp)
          obtain ⟨b0, h0, hk, hog, hrg⟩ := hI.same i b hb
          have hkid : ∀ kid ∈ b0.kids, ∃ c, w.blocks kid.id = some c ∧ (kid.stateful = true → c.st = .ready) := by
            intro kid hm
            rw [← hk] at hm
            obtain ⟨k, hlt, hke⟩ := List.mem_iff_getElem.1 hm
            have hlen := hI.len i b hi hb (by simp [hr])
            have hp : b.parts[k]? = some .done := by
              rw [List.getElem?_eq_getElem (by omega)]
              simpa using List.all_eq_true.1 hall _ (List.getElem_mem (by omega))
            exact hI.done i b hi hb k kid hp (by rw [List.getElem?_eq_getElem hlt, hke])
          refine Good.new hi h0 ?_ ?_ ?_ ?_
          · rw [← hog]; exact hI.own i b hi hb (by simp [hr]) ho
          · rw [← hrg]; exact hg
          · intro kid hm
            obtain ⟨c, hc, -⟩ := hkid kid hm
            obtain ⟨c0, hc0, -⟩ := hI.same _ _ hc
            simp [hc0]
          · intro kid hm hs
            obtain ⟨c, hc, hrdy⟩ := hkid kid hm
            by_cases hn : kid.id ∈ news
            · exact (hI.ready _ c hn hc (hrdy hs)).2.1
            · exact Good.old hn (by rw [← hI.old _ hn]; exact hc) (hrdy hs)
        · exact fail_inv hI hi hb hr (.inl rfl)

theorem run_inv (hf : Fresh blocks news) : ∀ (es : List Ev) {w : World}, Inv blocks news w → Inv blocks news (w.run es)
  | [], _, h => h
  | e :: es, _, h => run_inv hf es (step_inv hf h e)

/-! ### who is in Fault -/

/-- Nobody is in Fault who ought to get going -/
def FInv (blocks : Nat → Option Block) (news : List Nat) (w : World) : Prop :=
  ∀ i b, i ∈ news → w.blocks i = some b → b.st = .fault → ¬Good blocks news i

theorem good_new {i : Nat} {b : Block} (hg : Good blocks news i) (hi : i ∈ news) (hb : blocks i = some b) :
    b.ownGood = true ∧ b.restGood = true ∧ (∀ kid ∈ b.kids, (blocks kid.id).isSome) ∧
    ∀ kid ∈ b.kids, kid.stateful = true → Good blocks news kid.id := by
  cases hg with
  | old h => exact absurd hi h
  | new _ hb' h1 h2 h3 h4 =>
    rw [hb] at hb'
    cases hb'
    exact ⟨h1, h2, h3, h4⟩

theorem good_old {i : Nat} {b : Block} (hg : Good blocks news i) (hi : i ∉ news) (hb : blocks i = some b) : b.st = .ready := by
  cases hg with
  | old _ hb' h =>
    rw [hb] at hb'
    cases hb'
    exact h
  | new h => exact absurd h hi

theorem put_finv (hF : FInv blocks news w) {i : Nat} {b' : Block} {q : List Task}
    (h : i ∈ news → b'.st = .fault → ¬Good blocks news i) :
    FInv blocks news ⟨fun j => if j = i then some b' else w.blocks j, q⟩ := by
  intro j c hj hc hst
  by_cases hji : j = i
  · subst hji
    simp only [if_true, Option.some.injEq] at hc
    subst hc
    exact h hj hst
  · simp only [hji, if_false] at hc
    exact hF j c hj hc hst

theorem look_finv (hI : Inv blocks news w) (hF : FInv blocks news w) {i k : Nat} {b : Block} {kid : Kid} {q' : List Task}
    (hi : i ∈ news) (hb : w.blocks i = some b) (hk : b.kids[k]? = some kid) (hnq : ∀ j, .init j ∉ w.queue) :
    FInv blocks news (World.look { w with queue := q' } i b k kid) := by
  obtain ⟨b0, h0, hkids, -, -⟩ := hI.same i b hb
  have hm : kid ∈ b0.kids := by rw [← hkids]; exact List.mem_of_getElem? hk
  unfold World.look
  split
  · exact hF
  · rename_i hr
    have hr : b.st = .resetting := by simpa using hr
    split
    · rename_i hn
      refine put_finv hF fun _ _ hg => ?_
      have := (good_new hg hi h0).2.2.1 kid hm
      rw [Option.isSome_iff_exists] at this
      obtain ⟨c0, hc0⟩ := this
      obtain ⟨c, hc⟩ := hI.there _ _ hc0
      have hn : w.blocks kid.id = none := hn
      rw [hn] at hc
      cases hc
    · rename_i c hc
      have hc : w.blocks kid.id = some c := hc
      split
      · exact put_finv hF fun _ h => by simp [hr] at h
      · rename_i hs
        have hs : kid.stateful = true := by simpa using hs
        split
        · exact put_finv hF fun _ h => by simp [hr] at h
        · exact put_finv hF fun _ h => by simp [hr] at h
        · rename_i hst
          refine put_finv hF fun _ _ hg => ?_
          have hgk := (good_new hg hi h0).2.2.2 kid hm hs
          by_cases hn : kid.id ∈ news
          · exact hF _ c hn hc hst hgk
          · have := good_old hgk hn (by rw [← hI.old _ hn]; exact hc)
            simp [hst] at this
        · rename_i hst
          refine put_finv hF fun _ _ hg => ?_
          have hgk := (good_new hg hi h0).2.2.2 kid hm hs
          by_cases hn : kid.id ∈ news
          · exact hnq _ ((hI.unbegun _ c hn hc).1 hst)
          · have := good_old hgk hn (by rw [← hI.old _ hn]; exact hc)
            simp [hst] at this

theorem step_finv (hf : Fresh blocks news) (hI : Inv blocks news w) (hF : FInv blocks news w) {e : Ev}
    (he : ∀ i k, e ≠ .late i k) : FInv blocks news (w.step e) := by
  cases e with
  | late i k => exact absurd rfl (he i k)
  | next =>
    show FInv blocks news w.next
    unfold World.next
    split
    · exact hF
    · split
      · exact put_finv hF (by simp)
      · exact hF
    · rename_i i k q hq
      obtain ⟨hi, hn⟩ := head_part hI hq
      split
      · exact hF
      · rename_i b hb
        split
        · exact hF
        · rename_i kid hk
          exact look_finv hI hF hi hb hk hn
  | told i k =>
    show FInv blocks news (w.wait i k false)
    unfold World.wait
    split
    · exact hF
    · rename_i b hb
      split
      · exact hF
      · rename_i hw
        have hw : b.parts[k]? = some .waiting := by simpa using hw
        split
        · exact hF
        · rename_i kid hk
          by_cases hr : b.st = .resetting
          · have hi := in_news hf hI hb hr
            exact look_finv hI hF hi hb hk (waiting_front hI hi hb hw)
          · simpa [World.look, hr] using hF
  | own i =>
    show FInv blocks news (w.own i)
    unfold World.own
    split
    · exact hF
    · rename_i b hb
      obtain ⟨b0, h0, -, hg, -⟩ := hI.same i b hb
      split
      · exact hF
      · rename_i hc
        simp only [not_or, Bool.not_eq_true, ne_eq, Decidable.not_not] at hc
        split
        · exact put_finv hF fun _ h => by simp [hc.1] at h
        · rename_i hn
          refine put_finv hF fun hi _ hgood => hn ?_
          rw [hg]
          exact (good_new hgood hi h0).1
  | rest i =>
    show FInv blocks news (w.rest i)
    unfold World.rest
    split
    · exact hF
    · rename_i b hb
      obtain ⟨b0, h0, -, -, hg⟩ := hI.same i b hb
      split
      · exact hF
      · split
        · exact put_finv hF (by simp)
        · rename_i hn
          refine put_finv hF fun hi _ hgood => hn ?_
          rw [hg]
          exact (good_new hgood hi h0).2.1

theorem start_finv (h : Fresh blocks news) : FInv blocks news (World.start blocks news) := by
  intro i b hi hb hst
  obtain ⟨b', h1, h2, -⟩ := h.2.2 i hi
  have hb : blocks i = some b := hb
  rw [hb] at h1
  cases h1
  simp [h2] at hst

theorem run_finv (hf : Fresh blocks news) : ∀ (es : List Ev) {w : World}, InTime es → Inv blocks news w →
    FInv blocks news w → FInv blocks news (w.run es)
  | [], _, _, _, h => h
  | e :: es, _, ht, hI, h =>
    run_finv hf es (fun i k hm => ht i k (List.mem_cons_of_mem _ hm)) (step_inv hf hI e)
      (step_finv hf hI h fun i k he => ht i k (by simp [he]))

/-! ### how much there is to be done -/

def pend (ps : List PSt) : Nat := ps.countP (· ≠ .done)

def live (b : Block) : Nat :=
  match b.st with
  | .disabled => b.kids.length + 2
  | .resetting => pend b.parts + (if b.own then 0 else 1) + 1
  | _ => 0

def cost (blocks : Nat → Option Block) : Task → Nat
  | .init i => 1 + (match blocks i with | some b => 2 * b.kids.length | none => 0)
  | .part _ _ => 2

theorem cost_init {i : Nat} {b : Block} (h : blocks i = some b) : cost blocks (.init i) = 1 + 2 * b.kids.length := by
  simp [cost, h]

theorem work_cons {i : Nat} {b : Block} (h : blocks i = some b) (l : List Nat) :
    work blocks (i :: l) = 3 + 3 * b.kids.length + work blocks l := by
  simp [work, h]

def liveAt (w : World) (i : Nat) : Nat := match w.blocks i with | some b => live b | none => 0

/-- What is left to be done -/
def left (blocks : Nat → Option Block) (news : List Nat) (w : World) : Nat :=
  (w.queue.map (cost blocks)).sum + (news.map (liveAt w)).sum

theorem sum_congr {l : List Nat} {f g : Nat → Nat} (h : ∀ i ∈ l, f i = g i) : (l.map f).sum = (l.map g).sum := by
  rw [List.map_congr_left h]

theorem sum_change {l : List Nat} (hn : l.Nodup) {f g : Nat → Nat} {i : Nat} (hi : i ∈ l)
    (h : ∀ j ∈ l, j ≠ i → g j = f j) : (l.map g).sum + f i = (l.map f).sum + g i := by
  induction l with
  | nil => simp at hi
  | cons a l ih =>
    obtain ⟨ha, hl⟩ := List.nodup_cons.1 hn
    simp only [List.map_cons, List.sum_cons]
    by_cases hai : a = i
    · subst hai
      have := sum_congr (l := l) (f := g) (g := f) fun j hj => h j (List.mem_cons_of_mem _ hj) (fun e => ha (e ▸ hj))
      omega
    · have := ih hl (by simpa [Ne.symm hai] using hi) fun j hj => h j (List.mem_cons_of_mem _ hj)
      have h2 := h a (by simp) hai
      omega

theorem put_left (hn : news.Nodup) {i : Nat} {b b' : Block} {q : List Task} (hi : i ∈ news) (hb : w.blocks i = some b) :
    left blocks news ⟨fun j => if j = i then some b' else w.blocks j, q⟩ + live b + (w.queue.map (cost blocks)).sum =
    left blocks news w + live b' + (q.map (cost blocks)).sum := by
  have := sum_change hn (f := liveAt w) (g := liveAt ⟨fun j => if j = i then some b' else w.blocks j, q⟩) hi (by
    intro j _ hj
    simp [liveAt, hj])
  simp only [liveAt, if_true, hb] at this
  simp only [left]
  omega

theorem pend_set {ps : List PSt} {k : Nat} {p : PSt} (hk : ps[k]? = some p) (x : PSt) :
    pend (ps.set k x) + (if p ≠ .done then 1 else 0) = pend ps + (if x ≠ .done then 1 else 0) := by
  induction ps generalizing k with
  | nil => simp at hk
  | cons a ps ih =>
    cases k with
    | zero =>
      simp only [List.getElem?_cons_zero, Option.some.injEq] at hk
      subst hk
      simp only [pend, List.set_cons_zero, List.countP_cons, decide_eq_true_eq]
      omega
    | succ k =>
      simp only [List.getElem?_cons_succ] at hk
      have := ih hk
      simp only [pend, List.set_cons_succ, List.countP_cons] at this ⊢
      omega

theorem set_same {α : Type} {l : List α} {k : Nat} {a : α} (h : l[k]? = some a) : l.set k a = l := by
  obtain ⟨hlt, hg⟩ := List.getElem?_eq_some_iff.1 h
  rw [← hg, List.set_getElem_self]

theorem put_self {i : Nat} {b : Block} (hb : w.blocks i = some b) : w.put i b = w := by
  cases w
  simp only [World.put, World.mk.injEq, and_true]
  funext j
  by_cases hj : j = i
  · simpa [hj] using hb.symm
  · simp [hj]

/-- Looking at the state of the child leads on, except for waiting -/
theorem look_left (hf : Fresh blocks news) {i k : Nat} {b : Block} {kid : Kid} (hi : i ∈ news)
    (hb : w.blocks i = some b) (hr : b.st = .resetting) (q : List Task) :
    left blocks news (World.look { w with queue := q } i b k kid) + (w.queue.map (cost blocks)).sum ≤
      left blocks news w + (q.map (cost blocks)).sum + 1 ∧
    (b.parts[k]? = some .waiting → (∀ c, w.blocks kid.id = some c → kid.stateful = true → c.st ≠ .resetting) →
      left blocks news (World.look { w with queue := q } i b k kid) + (w.queue.map (cost blocks)).sum <
        left blocks news w + (q.map (cost blocks)).sum) := by
  have hput : ∀ b', left blocks news (World.put { w with queue := q } i b') + live b + (w.queue.map (cost blocks)).sum =
      left blocks news w + live b' + (q.map (cost blocks)).sum := fun b' => put_left hf.1 hi hb
  have hlive : live b = pend b.parts + (if b.own then 0 else 1) + 1 := by simp [live, hr]
  have hset : ∀ x, live { b with parts := b.parts.set k x } = pend (b.parts.set k x) + (if b.own then 0 else 1) + 1 := by
    intro x
    simp [live, hr]
  have hfail : live { b with st := .fault } = 0 := by simp [live]
  have hpd : pend (b.parts.set k .done) ≤ pend b.parts ∧
      (b.parts[k]? = some .waiting → pend (b.parts.set k .done) < pend b.parts) := by
    cases h : b.parts[k]? with
    | none =>
      rw [List.set_eq_of_length_le (List.getElem?_eq_none_iff.1 h)]
      exact ⟨Nat.le_refl _, by simp⟩
    | some p =>
      have := pend_set h .done
      cases p <;> simp at this ⊢ <;> omega
  have hpw : pend (b.parts.set k .waiting) ≤ pend b.parts + 1 := by
    cases h : b.parts[k]? with
    | none =>
      rw [List.set_eq_of_length_le (List.getElem?_eq_none_iff.1 h)]
      omega
    | some p =>
      have := pend_set h .waiting
      cases p <;> simp at this ⊢ <;> omega
  unfold World.look
  rw [if_neg (by simp [hr])]
  split
  · have := hput { b with st := .fault }
    simp only [World.fail]
    constructor
    · omega
    · intros; omega
  · rename_i c hc
    split
    · have := hput { b with parts := b.parts.set k .done }
      have h2 := hset .done
      refine ⟨by omega, fun h _ => ?_⟩
      have := hpd.2 h
      omega
    · rename_i hs
      have hs : kid.stateful = true := by simpa using hs
      split
      · have := hput { b with parts := b.parts.set k .done }
        have h2 := hset .done
        refine ⟨by omega, fun h _ => ?_⟩
        have := hpd.2 h
        omega
      · rename_i hst
        have := hput { b with parts := b.parts.set k .waiting }
        have h2 := hset .waiting
        exact ⟨by omega, fun _ h => absurd hst (h c hc hs)⟩
      · have := hput { b with st := .fault }
        simp only [World.fail]
        constructor
        · omega
        · intros; omega
      · have := hput { b with st := .fault }
        simp only [World.fail]
        constructor
        · omega
        · intros; omega

theorem next_left (hf : Fresh blocks news) (hI : Inv blocks news w) (hq : w.queue ≠ []) :
    left blocks news w.next < left blocks news w := by
  unfold World.next
  split
  · rename_i h; exact absurd h hq
  · rename_i i q hq
    have hi := head_init hI hq
    obtain ⟨b, hb⟩ := there' hf hI hi
    simp only [hb]
    obtain ⟨b0, h0, hk, -, -⟩ := hI.same i b hb
    have hd : b.st = .disabled := (hI.unbegun i b hi hb).2 (by simp [hq])
    have := put_left (blocks := blocks) (w := w) (b' := { b with st := .resetting, parts := b.kids.map fun _ => .idle, own := false })
      (q := q ++ (List.range b.kids.length).map (Task.part i)) hf.1 hi hb
    have e1 : live b = b.kids.length + 2 := by simp [live, hd]
    have e2 : live { b with st := .resetting, parts := b.kids.map fun _ => PSt.idle, own := false } = b.kids.length + 2 := by
      have : pend (b.kids.map fun _ => PSt.idle) = b.kids.length := by
        simp [pend, List.countP_map, Function.comp_def]
      simp [live, this]
    have e3 : ((List.range b.kids.length).map (Task.part i)).map (cost blocks) = List.replicate b.kids.length 2 := by
      rw [List.map_map]
      apply List.ext_getElem <;> simp [cost]
    rw [e1, e2, List.map_append, List.sum_append, e3, hq] at this
    rw [List.map_cons, List.sum_cons, cost_init h0, List.sum_replicate_nat, ← hk] at this
    show left blocks news ⟨fun j => if j = i then some _ else w.blocks j, q ++ _⟩ < _
    omega
  · rename_i i k q hq
    obtain ⟨hi, hn⟩ := head_part hI hq
    obtain ⟨b, hb⟩ := there' hf hI hi
    have hpop : left blocks news { w with queue := q } < left blocks news w := by
      have : (news.map (liveAt { w with queue := q })).sum = (news.map (liveAt w)).sum := rfl
      simp only [left, hq, List.map_cons, List.sum_cons, cost, this]
      omega
    simp only [hb]
    split
    · exact hpop
    · rename_i kid hk
      by_cases hr : b.st = .resetting
      · have := (look_left (k := k) (kid := kid) hf hi hb hr q).1
        rw [hq] at this
        simp only [List.map_cons, List.sum_cons, cost] at this
        omega
      · simpa [World.look, hr] using hpop

theorem fail_left (hf : Fresh blocks news) {i : Nat} {b : Block} (hi : i ∈ news) (hb : w.blocks i = some b)
    (hr : b.st = .resetting) : left blocks news (w.fail i b) < left blocks news w := by
  have := put_left (blocks := blocks) (b' := { b with st := .fault }) (q := w.queue) hf.1 hi hb
  have e1 : live b = pend b.parts + (if b.own then 0 else 1) + 1 := by simp [live, hr]
  have e2 : live { b with st := .fault } = 0 := by simp [live]
  simp only [World.fail, World.put]
  omega

/-- Whatever happens leads on or changes nothing -/
theorem step_left (hf : Fresh blocks news) (hI : Inv blocks news w) (e : Ev) :
    w.step e = w ∨ left blocks news (w.step e) < left blocks news w := by
  have hwait : ∀ i k t, w.wait i k t = w ∨ left blocks news (w.wait i k t) < left blocks news w := by
    intro i k t
    unfold World.wait
    split
    · exact .inl rfl
    · rename_i b hb
      split
      · exact .inl rfl
      · rename_i hw
        have hw : b.parts[k]? = some .waiting := by simpa using hw
        split
        · exact .inl rfl
        · rename_i kid hk
          by_cases hr : b.st = .resetting
          · have hi := in_news hf hI hb hr
            split
            · rw [if_neg (by simp [hr])]
              exact .inr (fail_left hf hi hb hr)
            · by_cases hc : ∀ c, w.blocks kid.id = some c → kid.stateful = true → c.st ≠ .resetting
              · have := (look_left (k := k) (kid := kid) hf hi hb hr w.queue).2 hw hc
                exact .inr (Nat.lt_of_add_lt_add_right this)
              · left
                have hc : ∃ c, w.blocks kid.id = some c ∧ kid.stateful = true ∧ c.st = .resetting := by
                  apply Classical.byContradiction
                  intro h
                  exact hc fun c h1 h2 h3 => h ⟨c, h1, h2, h3⟩
                obtain ⟨c, h1, h2, h3⟩ := hc
                simp only [World.look, hr, ne_eq, not_true, if_false, h1, h2, h3, Bool.not_true, Bool.false_eq_true]
                rw [set_same hw]
                exact put_self (by rw [hb]; cases b; simp only at hr; subst hr; rfl)
          · cases t <;> simp [World.look, hr]
  cases e with
  | next =>
    by_cases hq : w.queue = []
    · left
      show w.next = w
      simp [World.next, hq]
    · exact .inr (next_left hf hI hq)
  | told i k => exact hwait i k false
  | late i k => exact hwait i k true
  | own i =>
    show w.own i = w ∨ left blocks news (w.own i) < _
    unfold World.own
    split
    · exact .inl rfl
    · rename_i b hb
      split
      · exact .inl rfl
      · rename_i hc
        simp only [not_or, Bool.not_eq_true, ne_eq, Decidable.not_not] at hc
        have hi := in_news hf hI hb hc.1
        split
        · right
          have := put_left (blocks := blocks) (b' := { b with own := true }) (q := w.queue) hf.1 hi hb
          have e1 : live b = pend b.parts + 1 + 1 := by simp [live, hc.1, hc.2]
          have e2 : live { b with own := true } = pend b.parts + 1 := by simp [live, hc.1]
          simp only [World.put]
          omega
        · exact .inr (fail_left hf hi hb hc.1)
  | rest i =>
    show w.rest i = w ∨ left blocks news (w.rest i) < _
    unfold World.rest
    split
    · exact .inl rfl
    · rename_i b hb
      split
      · exact .inl rfl
      · rename_i hc
        simp only [not_or, Bool.not_eq_true, ne_eq, Decidable.not_not, Bool.not_eq_true', Bool.not_eq_false] at hc
        have hi := in_news hf hI hb hc.1
        split
        · right
          have := put_left (blocks := blocks) (b' := { b with st := .ready, laid := true }) (q := w.queue) hf.1 hi hb
          have e1 : live b = pend b.parts + (if b.own then 0 else 1) + 1 := by simp [live, hc.1]
          have e2 : live { b with st := .ready, laid := true } = 0 := by simp [live]
          simp only [World.put]
          omega
        · exact .inr (fail_left hf hi hb hc.1)

theorem effective_left (hf : Fresh blocks news) : ∀ (es : List Ev) {w : World}, Inv blocks news w → Effective w es →
    es.length ≤ left blocks news w
  | [], _, _, _ => Nat.zero_le _
  | e :: es, w, hI, ⟨h1, h2⟩ => by
    have := effective_left hf es (step_inv hf hI e) h2
    rcases step_left hf hI e with h | h
    · exact absurd h h1
    · simp only [List.length_cons]
      omega

theorem start_left (hf : Fresh blocks news) : left blocks news (World.start blocks news) = work blocks news := by
  have : ∀ l : List Nat, (∀ i ∈ l, i ∈ news) →
      ((l.map Task.init).map (cost blocks)).sum + (l.map (liveAt (World.start blocks news))).sum = work blocks l := by
    intro l
    induction l with
    | nil => intro _; rfl
    | cons a l ih =>
      intro h
      have := ih fun i hi => h i (List.mem_cons_of_mem _ hi)
      obtain ⟨b, hb, hd, -⟩ := hf.2.2 a (h a (by simp))
      have e : liveAt (World.start blocks news) a = b.kids.length + 2 := by
        simp [liveAt, World.start, hb, live, hd]
      rw [work_cons hb, List.map_cons, List.map_cons, List.map_cons, List.sum_cons, List.sum_cons, cost_init hb, e]
      omega
  exact this news fun _ h => h

theorem still_queue (hf : Fresh blocks news) (hI : Inv blocks news w) (hs : Still w) : w.queue = [] := by
  apply Classical.byContradiction
  intro h
  have h1 := next_left hf hI h
  have h2 := hs .next (by simp)
  have h2 : w.next = w := h2
  rw [h2] at h1
  omega

/-- When nothing is left to be done, a block that is still starting waits for a child that is -/
theorem still_waits (hf : Fresh blocks news) (hI : Inv blocks news w) (hs : Still w) {i : Nat} {b : Block} (hi : i ∈ news)
    (hb : w.blocks i = some b) (hr : b.st = .resetting) :
    ∃ kid ∈ b.kids, kid.stateful = true ∧ ∃ c, w.blocks kid.id = some c ∧ c.st = .resetting := by
  have hq := still_queue hf hI hs
  apply Classical.byContradiction
  intro hno
  have hlen := hI.len i b hi hb (by simp [hr])
  have hdone : b.parts.all (· = .done) = true := by
    rw [List.all_eq_true]
    intro p hp
    obtain ⟨k, hlt, hpk⟩ := List.mem_iff_getElem.1 hp
    have hk : b.parts[k]? = some p := by rw [List.getElem?_eq_getElem hlt, hpk]
    cases p with
    | done => rfl
    | idle =>
      have := hI.idle i b hi hb hr k hk
      simp [hq] at this
    | waiting =>
      have hkid : b.kids[k]? = some b.kids[k] := List.getElem?_eq_getElem (by omega)
      have h1 := (look_left (k := k) (kid := b.kids[k]) hf hi hb hr w.queue).2 hk fun c hc hst hres =>
        hno ⟨b.kids[k], List.getElem_mem _, hst, c, hc, hres⟩
      have h2 : w.wait i k false = w := hs (.told i k) (by simp)
      simp only [World.wait, hb, hk, ne_eq, not_true, if_false, hkid, Bool.false_eq_true] at h2
      have h3 : World.look { w with queue := w.queue } i b k b.kids[k] = w := h2
      rw [h3] at h1
      omega
  have hown : b.own = true := by
    cases ho : b.own
    · have h2 : w.own i = w := hs (.own i) (by simp)
      simp only [World.own, hb, hr, ho, ne_eq, not_true, Bool.false_eq_true, or_self, if_false] at h2
      have h3 : (w.own i).blocks i = w.blocks i := by simp only [World.own, hb, hr, ho, ne_eq, not_true, Bool.false_eq_true, or_self, if_false, h2]
      simp only [World.own, hb, hr, ho, ne_eq, not_true, Bool.false_eq_true, or_self, if_false] at h3
      split at h3
      · simp only [World.put, if_true, Option.some.injEq] at h3
        rw [← h3] at ho
        simp at ho
      · simp only [World.fail, World.put, if_true, Option.some.injEq] at h3
        rw [← h3] at hr
        simp at hr
    · rfl
  have h2 : (w.rest i).blocks i = w.blocks i := by
    have : w.rest i = w := hs (.rest i) (by simp)
    rw [this]
  simp only [World.rest, hb, hr, hown, hdone, ne_eq, not_true, Bool.not_true, Bool.false_eq_true, or_self, if_false] at h2
  split at h2
  · simp only [World.put, if_true, Option.some.injEq] at h2
    rw [← h2] at hr
    simp at hr
  · simp only [World.fail, World.put, if_true, Option.some.injEq] at h2
    rw [← h2] at hr
    simp at hr

theorem settled (hf : Fresh blocks news) (hI : Inv blocks news w) (hs : Still w) (hc : ChildrenFirst blocks) {i : Nat}
    (hi : i ∈ news) {b : Block} (hb : w.blocks i = some b) : b.st = .ready ∨ b.st = .fault := by
  obtain ⟨rank, hrank⟩ := hc
  have : ∀ n i b, rank i = n → i ∈ news → w.blocks i = some b → b.st = .ready ∨ b.st = .fault := by
    intro n
    induction n using Nat.strongRecOn with
    | ind n ih =>
      intro i b hn hi hb
      cases hst : b.st with
      | ready => exact .inl rfl
      | fault => exact .inr rfl
      | disabled =>
        have := (hI.unbegun i b hi hb).1 hst
        simp [still_queue hf hI hs] at this
      | resetting =>
        obtain ⟨kid, hm, hsf, c, hc, hcr⟩ := still_waits hf hI hs hi hb hst
        obtain ⟨b0, h0, hk, -, -⟩ := hI.same i b hb
        have hlt := hrank i b0 h0 kid (by rw [← hk]; exact hm) hsf
        have := ih (rank kid.id) (by omega) kid.id c rfl (in_news hf hI hc hcr) hc
        simp [hcr] at this
  exact this _ i b rfl hi hb

end Verif.Proofs.Startup
