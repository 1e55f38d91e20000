import Verif.Spec.PandAClient
/-!
C39: "However the reply byte stream is chunked by the network and however requests from several threads interleave,
the n-th complete reply is delivered to the n-th request sent, multi-line replies as one list."
-/
namespace Verif.Props.PandAClient
open Verif.PandAClient Verif.Spec.PandAClient

variable {Id : Type}

/-! ### Text comes in character by character -/

def feed (s : Client Id) (c : Char) : Client Id :=
  if c = '\n' then { loop := onLine s.loop s.buf, buf := [] } else { s with buf := s.buf ++ [c] }

theorem split_line (a b : List Char) (h : OneLine a) : splitLines (a ++ '\n' :: b) = a :: splitLines b := by
  induction a with
  | nil => simp [splitLines]
  | cons x a ih =>
    have hx : x ≠ '\n' := by intro e; apply h; simp [e]
    have ha : OneLine a := by intro e; apply h; simp [e]
    rw [List.cons_append, splitLines, if_neg hx, ih ha]

theorem split_none (a : List Char) (h : OneLine a) : splitLines a = [a] := by
  induction a with
  | nil => rfl
  | cons x a ih =>
    have hx : x ≠ '\n' := by intro e; apply h; simp [e]
    have ha : OneLine a := by intro e; apply h; simp [e]
    rw [splitLines, if_neg hx, ih ha]

theorem split_ne (a : List Char) : splitLines a ≠ [] := by
  cases a with
  | nil => simp [splitLines]
  | cons x a =>
    rw [splitLines]
    split
    · simp
    · split <;> simp

theorem recv_feed (text : List Char) : ∀ s : Client Id, OneLine s.buf → recvText s text = text.foldl feed s := by
  induction text with
  | nil =>
    intro s h
    simp [recvText, split_none _ h]
  | cons c text ih =>
    intro s h
    by_cases hc : c = '\n'
    · rw [List.foldl_cons, ← ih (feed s c) (by simp [feed, hc, OneLine])]
      have hne := split_ne text
      simp only [recvText, feed, hc, if_true, List.nil_append]
      rw [split_line _ _ h]
      cases hs : splitLines text with
      | nil => exact absurd hs hne
      | cons l ls => simp [List.getLastD]
    · rw [List.foldl_cons, ← ih (feed s c) ?_]
      · simp only [recvText, feed, hc, if_false, List.append_assoc, List.singleton_append]
      · simp only [feed, hc, if_false, OneLine, List.mem_append, List.mem_singleton]
        rintro (h' | h')
        · exact h h'
        · exact hc h'.symm

/-! ### How replies are written -/

def renders (rs : List Resp) : List Char := rs.flatMap render

theorem render_end (r : Resp) : ∃ q, render r = q ++ ['\n'] := by
  cases r with
  | line l => exact ⟨l, rfl⟩
  | error l => exact ⟨l, rfl⟩
  | lines ls => exact ⟨banged ls ++ ['.'], by simp [render]⟩

theorem complete_append (done rest : List Resp) (n : Nat) :
    complete (done ++ rest) ((renders done).length + n) = done.length + complete rest n := by
  induction done with
  | nil => simp [renders]
  | cons r done ih =>
    have : (renders (r :: done)).length = (render r).length + (renders done).length := by simp [renders]
    rw [this, List.cons_append, complete, if_pos (by omega),
      show (render r).length + (renders done).length + n - (render r).length = (renders done).length + n by omega, ih]
    simp; omega

theorem complete_mono (rs : List Resp) : ∀ m n, m ≤ n → complete rs m ≤ complete rs n := by
  induction rs with
  | nil => intros; simp [complete]
  | cons r rs ih =>
    intro m n h
    simp only [complete]
    by_cases h1 : (render r).length ≤ m
    · rw [if_pos h1, if_pos (by omega)]
      have := ih (m - (render r).length) (n - (render r).length) (by omega)
      omega
    · rw [if_neg h1]; omega

theorem line_inj {a b x y : List Char} (ha : OneLine a) (hb : OneLine b) (h : a ++ '\n' :: x = b ++ '\n' :: y) :
    a = b ∧ x = y := by
  induction a generalizing b with
  | nil =>
    cases b with
    | nil => simpa using h
    | cons c b =>
      simp at h
      exact absurd (by rw [← h.1]; simp) hb
  | cons d a ih =>
    cases b with
    | nil =>
      simp at h
      exact absurd (by rw [h.1]; simp) ha
    | cons c b =>
      simp only [List.cons_append, List.cons.injEq] at h
      obtain ⟨h1, h2⟩ := ih (b := b) (by intro e; apply ha; simp [e]) (by intro e; apply hb; simp [e]) h.2
      exact ⟨by rw [h.1, h1], h2⟩

/-! ### The invariant -/

/-- How far into the next reply the loop is -/
def Part (s : Client Id) (rest : List Resp) (p : List Char) : Prop :=
  (s.loop.acc = [] ∧ s.loop.multi = none ∧ p = s.buf) ∨
  (∃ l1 l2 rest', l1 ≠ [] ∧ rest = .lines (l1 ++ l2) :: rest' ∧ s.loop.acc = l1 ∧ s.loop.multi = some true ∧
    p = banged l1 ++ s.buf)

structure Inv (s : Client Id) (ids : List Id) (rs : List Resp) (done rest : List Resp) (p : List Char) : Prop where
  all : rs = done ++ rest
  none : rest = [] → p = []
  short : ∀ r rest', rest = r :: rest' → p.length < (render r).length
  alive : s.loop.dead = false
  asked : done.length ≤ ids.length
  waiting : s.loop.waiting = ids.drop done.length
  delivered : s.loop.delivered = (ids.take done.length).zip done
  line : OneLine s.buf
  part : Part s rest p

theorem respond_inv {s : Client Id} {ids : List Id} {rs done : List Resp} {r : Resp} {rest : List Resp} {p : List Char}
    (h : Inv s ids rs done (r :: rest) p) (hids : done.length < ids.length) (m : Option Bool) :
    Inv { loop := respond { s.loop with multi := m } r, buf := [] } ids rs (done ++ [r]) rest [] := by
  obtain ⟨i, w, hw, hi, hdrop⟩ : ∃ i w, s.loop.waiting = i :: w ∧ ids[done.length] = i ∧ ids.drop (done.length + 1) = w :=
    ⟨_, _, by rw [h.waiting, List.drop_eq_getElem_cons hids], rfl, rfl⟩
  refine ⟨by simp [h.all], by simp, ?_, ?_, by simp; omega, ?_, ?_, by simp [OneLine], Or.inl ?_⟩
  · intro r' rest' _
    obtain ⟨q, hq⟩ := render_end r'
    rw [hq]; simp
  · simp [respond, hw, h.alive]
  · simp [respond, hw, hdrop]
  · simp only [respond, hw, h.delivered, List.length_append, List.length_singleton]
    rw [List.take_succ_eq_append_getElem hids, List.zip_append (by simp; omega)]
    simp [hi]
  · simp [respond, hw]

theorem startsWith_iff (p l : Line) : startsWith p l = true ↔ p <+: l := by
  simp [startsWith]

/-- A whole line comes in -/
theorem line_step {s : Client Id} {ids : List Id} {rs done rest : List Resp} {p : List Char}
    (hv : ∀ r ∈ rs, Valid r) (h : Inv s ids rs done rest p) (more : List Char)
    (ht : renders rest = p ++ '\n' :: more)
    (hids : complete rs ((renders done).length + (p.length + 1)) ≤ ids.length) :
    ∃ done' rest' p', Inv { loop := onLine s.loop s.buf, buf := [] } ids rs done' rest' p' ∧
      renders done' ++ p' = renders done ++ (p ++ ['\n']) := by
  cases rest with
  | nil => simp [renders] at ht
  | cons r rest =>
    have hr : Valid r := hv r (by simp [h.all])
    have hren : renders (r :: rest) = render r ++ renders rest := by simp [renders]
    rw [hren] at ht
    -- when the reply is complete
    have hfull : p ++ ['\n'] = render r → done.length < ids.length := by
      intro e
      have hl : p.length + 1 = (render r).length := by rw [← e]; simp
      rw [h.all, complete_append, complete, if_pos (by omega)] at hids
      omega
    have hdone : p ++ ['\n'] = render r → renders (done ++ [r]) ++ [] = renders done ++ (p ++ ['\n']) := by
      intro e
      rw [e]; simp [renders]
    have hdead := h.alive
    rcases h.part with ⟨hacc, hmul, hp⟩ | ⟨l1, l2, rest', hne, hrest, hacc, hmul, hp⟩
    · subst hp
      cases r with
      | line l =>
        obtain ⟨hl, hbang, hdot, herr⟩ := hr
        have hb : s.buf = l := (line_inj h.line hl (by simpa [render] using ht.symm)).1
        have e : s.buf ++ ['\n'] = render (.line l) := by rw [hb]; rfl
        refine ⟨done ++ [.line l], rest, [], ?_, hdone e⟩
        have h1 : startsWith ['!'] l = false := by
          rw [Bool.eq_false_iff]; intro hc; rw [startsWith_iff] at hc; exact hbang hc
        have h2 : startsWith ['E', 'R', 'R'] l = false := by
          rw [Bool.eq_false_iff]; intro hc; rw [startsWith_iff] at hc; exact herr hc
        have h3 : (l == ['.']) = false := by simpa using hdot
        have := respond_inv h (hfull e) (some false)
        simpa [onLine, hdead, hmul, h1, h2, h3, hb] using this
      | error l =>
        obtain ⟨hl, herr⟩ := hr
        have hb : s.buf = l := (line_inj h.line hl (by simpa [render] using ht.symm)).1
        have e : s.buf ++ ['\n'] = render (.error l) := by rw [hb]; rfl
        refine ⟨done ++ [.error l], rest, [], ?_, hdone e⟩
        have h2 : startsWith ['E', 'R', 'R'] l = true := by rw [startsWith_iff]; exact herr
        have := respond_inv h (hfull e) (some (startsWith ['!'] s.buf || s.buf == ['.']))
        simpa [onLine, hdead, hmul, h2, hb] using this
      | lines ls =>
        cases ls with
        | nil =>
          have hb : s.buf = ['.'] := (line_inj (b := ['.']) (y := renders rest) h.line (by simp [OneLine])
            (by simpa [render, banged] using ht.symm)).1
          have e : s.buf ++ ['\n'] = render (.lines []) := by rw [hb]; rfl
          refine ⟨done ++ [.lines []], rest, [], ?_, hdone e⟩
          have := respond_inv h (hfull e) (some true)
          simpa [onLine, hdead, hmul, hb, startsWith, hacc] using this
        | cons l ls =>
          have hl : OneLine ('!' :: l) := by
            have := hr l (by simp)
            simp only [OneLine, List.mem_cons, not_or] at this ⊢
            exact ⟨by decide, this⟩
          have hb : s.buf = '!' :: l := (line_inj (y := banged ls ++ ['.', '\n'] ++ renders rest) h.line hl
            (by simpa [render, banged] using ht.symm)).1
          refine ⟨done, .lines (l :: ls) :: rest, banged [l], ?_, by rw [hb]; simp [banged]⟩
          refine ⟨h.all, by simp, ?_, ?_, h.asked, ?_, ?_, by simp [OneLine], Or.inr ?_⟩
          · intro r' rest' he
            cases he
            simp [render, banged]
          · simp [onLine, hdead, hmul, hb, startsWith]
          · simp [onLine, hdead, hmul, hb, startsWith, h.waiting]
          · simp [onLine, hdead, hmul, hb, startsWith, h.delivered]
          · exact ⟨[l], ls, rest, by simp, by simp, by simp [onLine, hdead, hmul, hb, startsWith, hacc],
              by simp [onLine, hdead, hmul, hb, startsWith], by simp⟩
    · cases hrest
      subst hp
      have ht' : banged l2 ++ ['.', '\n'] ++ renders rest = s.buf ++ '\n' :: more := by
        simpa [render, banged, List.flatMap_append, List.append_assoc] using ht
      cases l2 with
      | nil =>
        have hb : s.buf = ['.'] := (line_inj (b := ['.']) (y := renders rest) h.line (by simp [OneLine])
          (by simpa [banged] using ht'.symm)).1
        have e : banged l1 ++ s.buf ++ ['\n'] = render (.lines (l1 ++ [])) := by rw [hb]; simp [render]
        refine ⟨done ++ [.lines (l1 ++ [])], rest, [], ?_, hdone e⟩
        have := respond_inv h (hfull e) (some true)
        simpa [onLine, hdead, hmul, hb, startsWith, hacc] using this
      | cons l l2 =>
        have hl : OneLine ('!' :: l) := by
          have := hr l (by simp)
          simp only [OneLine, List.mem_cons, not_or] at this ⊢
          exact ⟨by decide, this⟩
        have hb : s.buf = '!' :: l := (line_inj (y := banged l2 ++ ['.', '\n'] ++ renders rest) h.line hl
          (by simpa [banged] using ht'.symm)).1
        refine ⟨done, .lines (l1 ++ l :: l2) :: rest, banged (l1 ++ [l]), ?_, by rw [hb]; simp [banged]⟩
        refine ⟨h.all, by simp, ?_, ?_, h.asked, ?_, ?_, by simp [OneLine], Or.inr ?_⟩
        · intro r' rest' he
          cases he
          simp [render, banged]
        · simp [onLine, hdead, hmul, hb, startsWith]
        · simp [onLine, hdead, hmul, hb, startsWith, h.waiting]
        · simp [onLine, hdead, hmul, hb, startsWith, h.delivered]
        · exact ⟨l1 ++ [l], l2, rest, by simp, by simp, by simp [onLine, hdead, hmul, hb, startsWith, hacc],
            by simp [onLine, hdead, hmul, hb, startsWith], by simp⟩

theorem feed_inv {s : Client Id} {ids : List Id} {rs done rest : List Resp} {p : List Char}
    (hv : ∀ r ∈ rs, Valid r) (h : Inv s ids rs done rest p) (c : Char) (more : List Char)
    (ht : renders rs = renders done ++ p ++ c :: more)
    (hids : complete rs ((renders done ++ p ++ [c]).length) ≤ ids.length) :
    ∃ done' rest' p', Inv (feed s c) ids rs done' rest' p' ∧ renders done' ++ p' = renders done ++ p ++ [c] := by
  have ht' : renders rest = p ++ c :: more := by
    rw [h.all] at ht
    simpa [renders, List.flatMap_append, List.append_assoc] using ht
  by_cases hc : c = '\n'
  · subst hc
    obtain ⟨d, r, p', h1, h2⟩ := line_step hv h more ht' (by simpa [Nat.add_assoc] using hids)
    exact ⟨d, r, p', by simpa [feed] using h1, by simpa using h2⟩
  · refine ⟨done, rest, p ++ [c], ?_, by simp⟩
    refine ⟨h.all, ?_, ?_, by simp [feed, hc, h.alive], h.asked, by simp [feed, hc, h.waiting],
      by simp [feed, hc, h.delivered], ?_, ?_⟩
    · intro he
      rw [he] at ht'
      simp [renders] at ht'
    · intro r rest' he
      have hs := h.short r rest' he
      refine Classical.byContradiction fun hn => ?_
      simp at hn
      have e : render r = p ++ [c] := by
        have e1 : render r ++ renders rest' = p ++ [c] ++ more := by
          rw [he] at ht'
          simpa [renders] using ht'
        exact (List.append_inj e1 (by simp; omega)).1
      obtain ⟨q, hq⟩ := render_end r
      rw [hq] at e
      have := (List.append_inj' e rfl).2
      exact hc (by simpa using this.symm)
    · simp only [feed, hc, if_false, OneLine, List.mem_append, List.mem_singleton]
      rintro (h' | h')
      · exact h.line h'
      · exact hc h'.symm
    · rcases h.part with ⟨h1, h2, h3⟩ | ⟨l1, l2, rest', h1, h2, h3, h4, h5⟩
      · exact Or.inl ⟨by simpa [feed, hc] using h1, by simpa [feed, hc] using h2, by simp [feed, hc, h3]⟩
      · exact Or.inr ⟨l1, l2, rest', h1, h2, by simpa [feed, hc] using h3, by simpa [feed, hc] using h4,
          by simp [feed, hc, h5]⟩

theorem feeds_inv (text : List Char) : ∀ {s : Client Id} {ids : List Id} {rs done rest : List Resp} {p : List Char},
    (∀ r ∈ rs, Valid r) → Inv s ids rs done rest p → renders done ++ p ++ text <+: renders rs →
    complete rs ((renders done ++ p ++ text).length) ≤ ids.length →
    ∃ done' rest' p', Inv (text.foldl feed s) ids rs done' rest' p' ∧ renders done' ++ p' = renders done ++ p ++ text := by
  induction text with
  | nil => intro s ids rs done rest p _ h _ _; exact ⟨done, rest, p, h, by simp⟩
  | cons c text ih =>
    intro s ids rs done rest p hv h ht hids
    obtain ⟨more, hmore⟩ := ht
    obtain ⟨d, r, p', h1, h2⟩ := feed_inv hv h c (text ++ more) (by rw [← hmore]; simp)
      (Nat.le_trans (complete_mono _ _ _ (by simp)) hids)
    obtain ⟨d2, r2, p2, h3, h4⟩ := ih hv h1 (by rw [h2]; exact ⟨more, by rw [← hmore]; simp⟩)
      (by rw [h2]; simpa [Nat.add_assoc, Nat.add_comm] using hids)
    exact ⟨d2, r2, p2, h3, by rw [h4, h2]; simp⟩

theorem received_snoc (ops : List (Op Id)) (o : Op Id) (t : List Char) (h : received (ops ++ [o]) = some t) :
    ∃ t1 t2, received ops = some t1 ∧ received [o] = some t2 ∧ t = t1 ++ t2 := by
  induction ops generalizing t with
  | nil => exact ⟨[], t, rfl, h, rfl⟩
  | cons a ops ih =>
    cases a with
    | send i =>
      obtain ⟨t1, t2, h1, h2, h3⟩ := ih t (by simpa [received] using h)
      exact ⟨t1, t2, by simpa [received] using h1, h2, h3⟩
    | sendFails i =>
      obtain ⟨t1, t2, h1, h2, h3⟩ := ih t (by simpa [received] using h)
      exact ⟨t1, t2, by simpa [received] using h1, h2, h3⟩
    | recv b =>
      simp only [List.cons_append, received] at h
      cases hd : decode b with
      | none => rw [hd] at h; simp at h
      | some x =>
        cases hr : received (ops ++ [o]) with
        | none => rw [hd, hr] at h; simp at h
        | some y =>
          rw [hd, hr] at h
          obtain ⟨t1, t2, h1, h2, h3⟩ := ih y hr
          exact ⟨x ++ t1, t2, by simp [received, hd, h1], h2, by rw [← Option.some.inj h, h3]; simp⟩

theorem snoc_ind {α : Type} {P : List α → Prop} (h0 : P []) (h1 : ∀ l a, P l → P (l ++ [a])) (l : List α) : P l := by
  rw [← List.reverse_reverse l]
  induction l.reverse with
  | nil => simpa using h0
  | cons a l ih => simpa using h1 _ a ih

theorem run_inv (rs : List Resp) (hv : ∀ r ∈ rs, Valid r) (ops : List (Op Id)) : ∀ t, received ops = some t →
    t <+: renders rs → Healthy ops → Causal rs ops →
    ∃ done rest p, Inv (run {} ops) (sent ops) rs done rest p ∧ renders done ++ p = t := by
  induction ops using snoc_ind with
  | h0 =>
    intro t ht _ _ _
    refine ⟨[], rs, [], ⟨rfl, fun _ => rfl, ?_, rfl, by simp, by simp [run, sent], by simp [run], by simp [run, OneLine], Or.inl (by simp [run])⟩, ?_⟩
    · intro r rest' _
      obtain ⟨q, hq⟩ := render_end r
      rw [hq]; simp
    · simpa [renders] using (Option.some.inj ht)
  | h1 ops o ih =>
    intro t ht hpre hh hc
    obtain ⟨t1, t2, ht1, ht2, rfl⟩ := received_snoc ops o t ht
    obtain ⟨done, rest, p, hinv, hdp⟩ := ih t1 ht1 (List.IsPrefix.trans (List.prefix_append _ _) hpre)
      (fun a ha => hh a (by simp [ha])) (fun pre t hp => hc pre t (List.IsPrefix.trans hp (List.prefix_append _ _)))
    have hrun : run ({} : Client Id) (ops ++ [o]) = step (run {} ops) o := by simp [run]
    rw [hrun]
    cases o with
    | sendFails i => exact absurd rfl ((hh (.sendFails i) (by simp)).1 i)
    | send i =>
      have hs : sent (ops ++ [.send i]) = sent ops ++ [i] := by simp [sent]
      have ht2' : t2 = [] := by simpa [received] using ht2.symm
      rw [hs, ht2']
      refine ⟨done, rest, p, ⟨hinv.all, hinv.none, hinv.short, hinv.alive, ?_, ?_, ?_, hinv.line, hinv.part⟩, by simpa using hdp⟩
      · have := hinv.asked; simp; omega
      · simp only [step, hinv.waiting, List.drop_append_of_le_length hinv.asked]
      · simp only [step, hinv.delivered, List.take_append_of_le_length hinv.asked]
    | recv b =>
      have hs : sent (ops ++ [.recv b]) = sent ops := by simp [sent]
      have hb : b ≠ [] := by intro e; exact (hh (.recv b) (by simp)).2 (by rw [e])
      have hd : decode b = some t2 := by
        simp only [received] at ht2
        cases hd : decode b with
        | none => rw [hd] at ht2; simp at ht2
        | some x => rw [hd] at ht2; simpa using ht2
      rw [hs]
      obtain ⟨d, r, p', h1, h2⟩ := feeds_inv t2 hv hinv (by rw [hdp]; exact hpre)
        (by rw [hdp]; have := hc _ _ (List.prefix_refl _) ht; rwa [hs] at this)
      refine ⟨d, r, p', ?_, by rw [h2, hdp]⟩
      simp only [step, hinv.alive, Bool.false_eq_true, if_false, hb, hd]
      rw [recv_feed _ _ hinv.line]
      exact h1

theorem take_zip (ids : List Id) (done rest : List Resp) (h : done.length ≤ ids.length) :
    (ids.take done.length).zip done = ids.zip ((done ++ rest).take done.length) := by
  rw [List.take_left' rfl]
  conv => rhs; rw [← List.take_append_drop done.length ids]
  have : ∀ (a b : List Id) (c : List Resp), a.length = c.length → (a ++ b).zip c = a.zip c := by
    intro a
    induction a with
    | nil => intro b c hl; cases c <;> simp at hl ⊢
    | cons x a ih => intro b c hl; cases c with
      | nil => simp at hl
      | cons y c => simp [ih b c (by simpa using hl)]
  rw [this _ _ _ (by simp; omega)]

/-- C39. Let a PandA write any replies, cut in any pieces, mixed with any requests so that no reply comes before its
request: then what has been delivered is the n-th complete reply to the n-th request, for all complete replies, and
nothing else. Missing: failing sends (see `failed_send_slips`) and pieces that cut a character in two, so that they
cannot be decoded (see `cut_character_ends`). -/
theorem matched_partial (rs : List Resp) (hv : ∀ r ∈ rs, Valid r) (ops : List (Op Id)) (t : List Char)
    (ht : received ops = some t) (hpre : t <+: rs.flatMap render) (hh : Healthy ops) (hc : Causal rs ops) :
    (run {} ops).loop.delivered = (sent ops).zip (rs.take (complete rs t.length)) := by
  obtain ⟨done, rest, p, hinv, hdp⟩ := run_inv rs hv ops t ht hpre hh hc
  have hcount : complete rs t.length = done.length := by
    rw [← hdp, hinv.all, List.length_append, complete_append]
    cases rest with
    | nil => simp [complete]
    | cons r rest =>
      have := hinv.short r rest rfl
      rw [complete, if_neg (by omega)]; rfl
  rw [hinv.delivered, hcount, take_zip _ _ rest hinv.asked, ← hinv.all]

/-- Pieces of plain ASCII can always be decoded, so C39 holds in full for a PandA that only writes ASCII -/
theorem ascii_decodes (b : List Nat) (h : ∀ x ∈ b, x < 128) : decode b = some (b.map Char.ofNat) := by
  induction b with
  | nil => rfl
  | cons x b ih =>
    have hx := h x (by simp)
    rw [decode.eq_def]
    simp only [show x < 0x80 from hx, if_true, ih (fun y hy => h y (by simp [hy]))]
    rfl

theorem matched_ascii (rs : List Resp) (hv : ∀ r ∈ rs, Valid r) (ops : List (Op Id))
    (ha : ∀ b, Op.recv b ∈ ops → ∀ x ∈ b, x < 128)
    (hpre : (ops.flatMap fun | .recv b => b.map Char.ofNat | _ => []) <+: rs.flatMap render)
    (hh : Healthy ops) (hc : Causal rs ops) :
    (run {} ops).loop.delivered = (sent ops).zip
      (rs.take (complete rs (ops.flatMap fun | .recv b => b | _ => []).length)) := by
  have hrec : ∀ ops : List (Op Id), (∀ b, Op.recv b ∈ ops → ∀ x ∈ b, x < 128) →
      received ops = some (ops.flatMap fun | .recv b => b.map Char.ofNat | _ => []) := by
    intro ops
    induction ops with
    | nil => intro _; rfl
    | cons o ops ih =>
      intro ha
      have := ih (fun b hb => ha b (by simp [hb]))
      cases o with
      | send i => simpa [received] using this
      | sendFails i => simpa [received] using this
      | recv b => simp [received, ascii_decodes b (ha b (by simp)), this]
  have hlen : ∀ ops : List (Op Id), (ops.flatMap fun | .recv b => b.map Char.ofNat | _ => []).length =
      (ops.flatMap fun | .recv b => b | _ => []).length := by
    intro ops
    induction ops with
    | nil => rfl
    | cons o ops ih => cases o <;> simp_all
  rw [matched_partial rs hv ops _ (hrec ops ha) hpre hh hc, hlen]

theorem toNat_bounds (c : Char) : c.toNat < 0xD800 ∨ (0xDFFF < c.toNat ∧ c.toNat < 0x110000) := c.valid

theorem ofNat_val (n : Nat) (h : n < 0xD800 ∨ (0xDFFF < n ∧ n < 0x110000)) : (Char.ofNat n).toNat = n := by
  have hv : n.isValidChar := h
  simp only [Char.ofNat, hv, dif_pos]
  simp [Char.ofNatAux, Char.toNat]

theorem ofNat_eq (c : Char) (n : Nat) (h : n = c.toNat) : Char.ofNat n = c := by
  rw [h]; exact Char.ofNat_toNat c

theorem cont_iff (b : Nat) : cont b = true ↔ 0x80 ≤ b ∧ b < 0xC0 := by simp [cont]

theorem decode_char (c : Char) (rest : List Nat) : decode (utf8 c ++ rest) = (decode rest).map (c :: ·) := by
  have hb := toNat_bounds c
  unfold utf8
  by_cases h1 : c.toNat < 0x80
  · rw [if_pos h1, List.singleton_append, decode.eq_def]
    simp only [h1, if_true, ofNat_eq c _ rfl]
  · rw [if_neg h1]
    by_cases h2 : c.toNat < 0x800
    · rw [if_pos h2, List.cons_append, List.singleton_append, decode.eq_def]
      simp only
      rw [if_neg (by omega), if_pos (by simp only [Bool.and_eq_true, decide_eq_true_eq, cont_iff]; omega), ofNat_eq c _ (by omega)]
    · rw [if_neg h2]
      by_cases h3 : c.toNat < 0x10000
      · rw [if_pos h3, List.cons_append, List.cons_append, List.singleton_append, decode.eq_def]
        simp only
        rw [if_neg (by omega), if_neg (by simp only [Bool.and_eq_true, decide_eq_true_eq, cont_iff]; omega),
          if_pos (by simp only [Bool.and_eq_true, Bool.not_eq_true', Bool.and_eq_false_iff, decide_eq_true_eq, decide_eq_false_iff_not, cont_iff]; omega),
          ofNat_eq c _ (by omega)]
      · rw [if_neg h3, List.cons_append, List.cons_append, List.cons_append, List.singleton_append, decode.eq_def]
        simp only
        rw [if_neg (by omega), if_neg (by simp only [Bool.and_eq_true, decide_eq_true_eq, cont_iff]; omega),
          if_neg (by simp only [Bool.and_eq_true, decide_eq_true_eq, cont_iff]; omega),
          if_pos (by simp only [Bool.and_eq_true, decide_eq_true_eq, cont_iff]; omega),
          ofNat_eq c _ (by omega)]

theorem decode_chars (t : List Char) : decode (t.flatMap utf8) = some t := by
  induction t with
  | nil => rfl
  | cons c t ih => rw [List.flatMap_cons, decode_char, ih]; rfl

theorem of_decode : ∀ (n : Nat) (b : List Nat) (t : List Char), b.length ≤ n → decode b = some t → b = t.flatMap utf8 := by
  intro n
  induction n with
  | zero =>
    intro b t hl h
    cases b with
    | nil => rw [decode.eq_def] at h; cases h; rfl
    | cons x b => simp at hl
  | succ n ih =>
    intro b t hl h
    have fin : ∀ (bs rest : List Nat) (v : Nat), bs ++ rest = b → rest.length ≤ n → (decode rest).map (Char.ofNat v :: ·) = some t →
        utf8 (Char.ofNat v) = bs → b = t.flatMap utf8 := by
      intro bs rest v he hlr hd hu
      cases hr : decode rest with
      | none => rw [hr] at hd; cases hd
      | some u =>
        rw [hr] at hd
        cases hd
        rw [List.flatMap_cons, hu, ← ih rest u hlr hr, he]
    rw [decode.eq_def] at h
    cases b with
    | nil => cases h; rfl
    | cons x b =>
      simp only at h
      simp only [List.length_cons] at hl
      by_cases h1 : x < 0x80
      · rw [if_pos h1] at h
        refine fin [x] b x rfl (by omega) h ?_
        unfold utf8
        rw [ofNat_val x (by omega), if_pos h1]
      · rw [if_neg h1] at h
        cases b with
        | nil => cases h
        | cons c b =>
          simp only at h
          simp only [List.length_cons] at hl
          by_cases h2 : (decide (0xC2 ≤ x) && decide (x < 0xE0) && cont c) = true
          · rw [if_pos h2] at h
            simp only [Bool.and_eq_true, decide_eq_true_eq, cont_iff] at h2
            refine fin [x, c] b _ rfl (by omega) h ?_
            unfold utf8
            rw [ofNat_val _ (by omega), if_neg (by omega), if_pos (by omega)]
            simp only [List.cons.injEq, and_true]
            omega
          · rw [if_neg h2] at h
            cases b with
            | nil => cases h
            | cons d b =>
              simp only at h
              simp only [List.length_cons] at hl
              split at h
              · rename_i h3
                simp only [Bool.and_eq_true, Bool.not_eq_true', Bool.and_eq_false_iff, decide_eq_true_eq, decide_eq_false_iff_not, cont_iff] at h3
                refine fin [x, c, d] b _ rfl (by omega) h ?_
                unfold utf8
                rw [ofNat_val _ (by omega), if_neg (by omega), if_neg (by omega), if_pos (by omega)]
                simp only [List.cons.injEq, and_true]
                omega
              · cases b with
                | nil => cases h
                | cons e b =>
                  simp only at h
                  simp only [List.length_cons] at hl
                  split at h
                  · rename_i h4
                    simp only [Bool.and_eq_true, decide_eq_true_eq, cont_iff] at h4
                    refine fin [x, c, d, e] b _ rfl (by omega) h ?_
                    unfold utf8
                    rw [ofNat_val _ (by omega), if_neg (by omega), if_neg (by omega), if_neg (by omega)]
                    simp only [List.cons.injEq, and_true]
                    omega
                  · cases h

/-- What is decoded is UTF-8: bytes are taken for a text exactly if they are how it is written in UTF-8. -/
theorem decode_iff (b : List Nat) (t : List Char) : decode b = some t ↔ b = t.flatMap utf8 :=
  ⟨of_decode _ b t (Nat.le_refl _), fun h => by rw [h]; exact decode_chars t⟩

/-- The text of the pieces that come in -/
def texts (ops : List (Op Id × List Char)) : List Char := ops.flatMap (·.2)

/-- C39 for any text: let each piece that comes in be whole characters, in UTF-8. -/
theorem matched_text_partial (rs : List Resp) (hv : ∀ r ∈ rs, Valid r) (ops : List (Op Id × List Char))
    (hp : ∀ o ∈ ops, match o.1 with
      | .recv b => b = o.2.flatMap utf8
      | _ => o.2 = [])
    (hpre : texts ops <+: rs.flatMap render) (hh : Healthy (ops.map (·.1))) (hc : Causal rs (ops.map (·.1))) :
    (run {} (ops.map (·.1))).loop.delivered = (sent (ops.map (·.1))).zip (rs.take (complete rs (texts ops).length)) := by
  have hrec : ∀ ops : List (Op Id × List Char), (∀ o ∈ ops, match o.1 with
      | .recv b => b = o.2.flatMap utf8
      | _ => o.2 = []) → received (ops.map (·.1)) = some (texts ops) := by
    intro ops
    induction ops with
    | nil => intro _; rfl
    | cons o ops ih =>
      intro hp
      have h1 := ih (fun o ho => hp o (by simp [ho]))
      have h2 := hp o (by simp)
      obtain ⟨o, u⟩ := o
      cases o with
      | send i => simp only at h2; subst h2; simpa [received, texts] using h1
      | sendFails i => simp only at h2; subst h2; simpa [received, texts] using h1
      | recv b => simp only at h2; subst h2; simp [received, decode_chars, h1, texts]
  exact matched_partial rs hv _ _ (hrec ops hp) hpre hh hc

/-- A reply that nobody waits for ends the loop, and so does a line that does not belong to a reply of several lines: nothing is
delivered from then on. -/
theorem stray_reply_ends (i : Id) :
    (run ({} : Client Id) [.recv [49, 10], .send i, .recv [49, 10]]).loop.delivered = [] ∧
    (run ({} : Client Id) [.send i, .recv [33, 97, 10, 97, 10, 46, 10, 46, 10]]).loop.delivered = [] := ⟨rfl, rfl⟩

/-- `n\n`, several lines and an error, in pieces that do not respect them, with three requests -/
def sample : List (Op Nat) :=
  [.send 7, .send 8, .recv [49], .recv [10, 33, 97, 10, 33], .send 9, .recv [10, 46, 10, 69, 82], .recv [82, 10]]

def sampleReplies : List Resp := [.line ['1'], .lines [['a'], []], .error ['E', 'R', 'R']]

example : (∀ r ∈ sampleReplies, Valid r) ∧
    (sample.flatMap fun | .recv b => b.map Char.ofNat | _ => []) <+: sampleReplies.flatMap render ∧ Healthy sample ∧
    Causal sampleReplies sample ∧
    (run {} sample).loop.delivered = [(7, .line ['1']), (8, .lines [['a'], []]), (9, .error ['E', 'R', 'R'])] := by
  refine ⟨?_, by decide +kernel, ?_, ?_, by decide +kernel⟩
  · simp [sampleReplies, Valid, OneLine]
  · simp [sample, Healthy]
  · intro pre t hp hr
    have hlen := hp.length_le
    rw [List.prefix_iff_eq_take] at hp
    have all : ∀ n, n ≤ 7 → ∀ u, received (sample.take n) = some u →
        complete sampleReplies u.length ≤ (sent (sample.take n)).length := by
      have : ∀ n : Fin 8, ((received (sample.take n)).all fun u =>
          decide (complete sampleReplies u.length ≤ (sent (sample.take n)).length)) = true := by decide +kernel
      intro n hn u hu
      have := this ⟨n, by omega⟩
      simpa [hu] using this
    rw [hp] at hr ⊢
    exact all _ (by simpa [sample] using hlen) t hr

/-- A request that could not be sent still waits in line: the reply to the next one is delivered to it, and so on for
ever -/
theorem failed_send_slips (i j : Id) :
    (run {} [.sendFails i, .send j, .recv [49, 10]]).loop.delivered = [(i, .line ['1'])] := by
  rfl

/-- A piece that ends within a character ends the loop: the reply is never delivered, although all of it comes in.
Here the reply is a micro sign, in two pieces. -/
theorem cut_character_ends (i : Id) (ops : List (Op Id)) :
    decode [0xC2, 0xB5, 10] = some ['µ', '\n'] ∧
    (run {} ([.send i, .recv [0xC2], .recv [0xB5, 10]] ++ ops)).loop.delivered = [] := by
  refine ⟨by decide +kernel, ?_⟩
  have hdead : ∀ (ops : List (Op Id)) (s : Client Id), s.loop.dead = true → (run s ops).loop.delivered = s.loop.delivered := by
    intro ops
    induction ops with
    | nil => intro s _; rfl
    | cons o ops ih =>
      intro s h
      have : (step s o).loop.dead = true ∧ (step s o).loop.delivered = s.loop.delivered := by
        cases o <;> simp [step, h]
      have h2 := ih (step s o) this.1
      simp only [run, List.foldl_cons] at h2 ⊢
      rw [h2, this.2]
  have : run ({} : Client Id) ([.send i, .recv [0xC2], .recv [0xB5, 10]] ++ ops) =
      run (run {} [.send i, .recv [0xC2], .recv [0xB5, 10]]) ops := by simp [run]
  rw [this, hdead _ _ (by rfl)]
  rfl

end Verif.Props.PandAClient
