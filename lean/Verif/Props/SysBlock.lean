import Verif.Spec.SysBlock
import Verif.Proofs.PyDict
/-!
C106: the block that stands for the process.
-/
namespace Verif.Props.SysBlock
open Verif Verif.SysBlock Verif.Spec.SysBlock

/-! ### hooks -/

theorem set_all {H F : Type} [DecidableEq H] (v : F) (h : H) : ∀ (hs : List H) (d : Dict H F),
    (hs.foldl (fun d k => d.set k v) d).get? h = if h ∈ hs then some v else d.get? h := by
  intro hs
  induction hs with
  | nil => intro d; simp
  | cons k hs ih =>
    intro d
    rw [List.foldl_cons, ih]
    by_cases h1 : h ∈ hs
    · simp [h1]
    · by_cases h2 : k = h
      · subst h2; simp [h1]
      · have : ¬ h ∈ k :: hs := by
          intro hh; rcases List.mem_cons.1 hh with rfl | hh
          · exact h2 rfl
          · exact h1 hh
        rw [if_neg h1, if_neg this, Dict.get?_set_ne _ _ h2]

theorem registered_get {H F : Type} [DecidableEq H] (h : H) : ∀ (rs : List (Reg H F)) (d d' : Dict H (F × List String)),
    registerAll rs d = some d' →
      (∀ f, onHook d' h = some f ↔ LastFor rs h f ∨ ((∀ q ∈ rs, h ∉ q.hooks) ∧ onHook d h = some f)) := by
  intro rs
  induction rs with
  | nil =>
    intro d d' he f
    simp only [registerAll, Option.some.injEq] at he
    subst he
    constructor
    · intro hh; exact .inr ⟨by simp, hh⟩
    · rintro (⟨pre, r, post, hh, _⟩ | hh)
      · cases pre <;> cases hh
      · exact hh.2
  | cons r rs ih =>
    intro d d' he f
    unfold registerAll at he
    cases h1 : registerHooked d r with
    | none => rw [h1] at he; cases he
    | some d1 =>
      rw [h1, Option.bind_some] at he
      rw [ih d1 d' he f]
      have h2 : onHook d1 h = if h ∈ r.hooks then some r.func else onHook d h := by
        unfold registerHooked at h1
        cases hm : makeArgsGen r.needs r.types with
        | none => rw [hm] at h1; cases h1
        | some a =>
          rw [hm, Option.map_some, Option.some.injEq] at h1
          subst h1
          unfold onHook
          rw [set_all]
          split <;> rfl
      rw [h2]
      constructor
      · rintro (⟨pre, q, post, e, hh⟩ | ⟨hn, hh⟩)
        · exact .inl ⟨r :: pre, q, post, by rw [e]; rfl, hh⟩
        · split at hh
          · rename_i hr
            simp only [Option.some.injEq] at hh
            exact .inl ⟨[], r, rs, rfl, hr, hh, hn⟩
          · rename_i hr
            refine .inr ⟨?_, hh⟩
            intro q hq
            rcases List.mem_cons.1 hq with rfl | hq
            · exact hr
            · exact hn q hq
      · rintro (⟨pre, q, post, e, hq, hf, hp⟩ | ⟨hn, hh⟩)
        · cases pre with
          | nil =>
            simp only [List.nil_append, List.cons.injEq] at e
            obtain ⟨rfl, rfl⟩ := e
            exact .inr ⟨hp, by rw [if_pos hq, hf]⟩
          | cons p pre =>
            simp only [List.cons_append, List.cons.injEq] at e
            obtain ⟨rfl, rfl⟩ := e
            exact .inl ⟨pre, q, post, rfl, hq, hf, hp⟩
        · refine .inr ⟨fun q hq => hn q (List.mem_cons_of_mem _ hq), ?_⟩
          rw [if_neg (hn r List.mem_cons_self)]
          exact hh

/-- **C106**: when a hook is run the function that is called is the one registered last for that hook, and no other, whatever was registered in
whatever order; registering a function that takes arguments without saying their types is refused. -/
theorem last_registered {H F : Type} [DecidableEq H] (rs : List (Reg H F)) :
    (registerAll rs [] = none ↔ ∃ r ∈ rs, r.needs ≠ [] ∧ r.types = []) ∧
      ∀ d, registerAll rs [] = some d → ∀ h f, onHook d h = some f ↔ LastFor rs h f := by
  constructor
  · suffices hh : ∀ d : Dict H (F × List String), registerAll rs d = none ↔ ∃ r ∈ rs, r.needs ≠ [] ∧ r.types = [] from hh []
    induction rs with
    | nil => intro d; simp [registerAll]
    | cons r rs ih =>
      intro d
      unfold registerAll registerHooked makeArgsGen
      by_cases hc : r.needs ≠ [] ∧ r.types = []
      · rw [if_pos hc]
        simp only [Option.map_none, Option.bind_none, true_iff]
        exact ⟨r, List.mem_cons_self, hc⟩
      · rw [if_neg hc]
        simp only [Option.map_some, Option.bind_some]
        rw [ih]
        constructor
        · rintro ⟨q, hq, hh⟩; exact ⟨q, List.mem_cons_of_mem _ hq, hh⟩
        · rintro ⟨q, hq, hh⟩
          rcases List.mem_cons.1 hq with rfl | hq
          · exact absurd hh hc
          · exact ⟨q, hq, hh⟩
  · intro d he h f
    rw [registered_get h rs [] d he f]
    constructor
    · rintro (hh | ⟨_, hh⟩)
      · exact hh
      · cases hh
    · exact .inl

example : ∃ d, registerAll registrations [] = some d ∧ onHook d .start = some Fn.init ∧ onHook d .stop = some Fn.stopIoc := ⟨_, rfl, rfl, rfl⟩

/-! ### which IOCs -/

/-- text without spaces matches the pattern up to the space exactly if it matches as a whole -/
theorem match_word (body : List (Char → Bool)) (hb : ∀ f ∈ body, f ' ' = false) : ∀ (x y : Text), ' ' ∉ x →
    matchPat (body ++ [(· == ' ')]) (x ++ ' ' :: y) = if matchPat body x = some [] then some y else none := by
  induction body with
  | nil =>
    intro x y hx
    cases x with
    | nil => simp [matchPat]
    | cons c x =>
      have : c ≠ ' ' := by intro h; exact hx (h ▸ List.mem_cons_self)
      simp [matchPat, this]
  | cons f body ih =>
    intro x y hx
    cases x with
    | nil => simp [matchPat, hb f List.mem_cons_self]
    | cons c x =>
      simp only [List.cons_append, matchPat]
      split
      · exact ih (fun g hg => hb g (List.mem_cons_of_mem _ hg)) x y (fun h => hx (List.mem_cons_of_mem _ h))
      · rfl

/-- nothing matches where a line break comes before a space -/
theorem match_line (body : List (Char → Bool)) (hb : ∀ f ∈ body, f '\n' = false) : ∀ (x y : Text), ' ' ∉ x →
    matchPat (body ++ [(· == ' ')]) (x ++ '\n' :: y) = none := by
  induction body with
  | nil =>
    intro x y hx
    cases x with
    | nil => simp [matchPat]
    | cons c x =>
      have : c ≠ ' ' := by intro h; exact hx (h ▸ List.mem_cons_self)
      simp [matchPat, this]
  | cons f body ih =>
    intro x y hx
    cases x with
    | nil => simp [matchPat, hb f List.mem_cons_self]
    | cons c x =>
      simp only [List.cons_append, matchPat]
      split
      · exact ih (fun g hg => hb g (List.mem_cons_of_mem _ hg)) x y (fun h => hx (List.mem_cons_of_mem _ h))
      · rfl

theorem skip_over (pat : List (Char → Bool)) : ∀ (x y : Text), findall pat x.length (x ++ y) = findall pat 0 y := by
  intro x
  induction x with
  | nil => intro y; rfl
  | cons c x ih => intro y; exact ih y

theorem match_length (body : List (Char → Bool)) : ∀ (x : Text), matchPat body x = some [] → x.length = body.length := by
  induction body with
  | nil => intro x h; simp only [matchPat, Option.some.injEq] at h; rw [h]; rfl
  | cons f body ih =>
    intro x h
    cases x with
    | nil => cases h
    | cons c x =>
      unfold matchPat at h
      split at h
      · simp [ih x h]
      · cases h

theorem find_none (pat : List (Char → Bool)) (c : Char) (t : Text) (h : matchPat pat (c :: t) = none) : findall pat 0 (c :: t) = findall pat 0 t := by
  rw [findall, h]

theorem find_some (pat : List (Char → Bool)) (c : Char) (t r : Text) (h : matchPat pat (c :: t) = some r) :
    findall pat 0 (c :: t) = (c :: t).take pat.length :: findall pat (pat.length - 1) t := by
  rw [findall, h]

/-- the path at the end of a line -/
theorem find_path (body : List (Char → Bool)) (hb : ∀ f ∈ body, f '\n' = false) : ∀ (x y : Text), ' ' ∉ x →
    findall (body ++ [(· == ' ')]) 0 (x ++ '\n' :: y) = findall (body ++ [(· == ' ')]) 0 y := by
  intro x
  induction x with
  | nil =>
    intro y hx
    have := match_line body hb [] y hx
    rw [List.nil_append] at this ⊢
    exact find_none _ _ _ this
  | cons c x ih =>
    intro y hx
    have := match_line body hb (c :: x) y hx
    rw [List.cons_append] at this ⊢
    rw [find_none _ _ _ this]
    exact ih y (fun h => hx (List.mem_cons_of_mem _ h))

/-- the first end of a text that matches -/
def ending (body : List (Char → Bool)) : Text → Option Text
  | [] => if matchPat body [] = some [] then some [] else none
  | c :: x => if matchPat body (c :: x) = some [] then some (c :: x) else ending body x

theorem find_name (body : List (Char → Bool)) (hb : ∀ f ∈ body, f ' ' = false) (hne : body ≠ []) : ∀ (x y : Text), ' ' ∉ x →
    findall (body ++ [(· == ' ')]) 0 (x ++ ' ' :: y) =
      ((ending body x).map (· ++ [' '])).toList ++ findall (body ++ [(· == ' ')]) 0 y := by
  intro x
  induction x with
  | nil =>
    intro y hx
    have h0 : matchPat body [] ≠ some [] := by
      cases body with
      | nil => exact absurd rfl hne
      | cons f body => simp [matchPat]
    have := match_word body hb [] y hx
    rw [if_neg h0, List.nil_append] at this
    rw [List.nil_append, find_none _ _ _ this]
    unfold ending
    rw [if_neg h0]
    rfl
  | cons c x ih =>
    intro y hx
    have hm := match_word body hb (c :: x) y hx
    rw [List.cons_append] at hm ⊢
    unfold ending
    by_cases h : matchPat body (c :: x) = some []
    · rw [if_pos h] at hm ⊢
      rw [find_some _ _ _ _ hm]
      have hl := match_length body _ h
      have e1 : (c :: (x ++ ' ' :: y)).take (body ++ [(fun z : Char => z == ' ')]).length = (c :: x) ++ [' '] := by
        rw [List.length_append, ← hl]
        have : c :: (x ++ ' ' :: y) = ((c :: x) ++ [' ']) ++ y := by simp
        rw [this, List.take_append_of_le_length (by simp)]
        rw [List.take_of_length_le (by simp)]
      have e2 : findall (body ++ [(fun z : Char => z == ' ')]) ((body ++ [(fun z : Char => z == ' ')]).length - 1) (x ++ ' ' :: y) =
          findall (body ++ [(fun z : Char => z == ' ')]) 0 y := by
        have : x ++ ' ' :: y = (x ++ [' ']) ++ y := by simp
        rw [this, ← skip_over _ (x ++ [' ']) y]
        congr 1
        simp [← hl]
      rw [e1, e2]
      rfl
    · rw [if_neg h] at hm ⊢
      rw [find_none _ _ _ hm]
      exact ih y (fun h => hx (List.mem_cons_of_mem _ h))

theorem ending_suffix (body : List (Char → Bool)) : ∀ (x m : Text), ending body x = some m → m <:+ x ∧ matchPat body m = some [] := by
  intro x
  induction x with
  | nil =>
    intro m h
    unfold ending at h
    split at h
    · simp only [Option.some.injEq] at h; subst h; exact ⟨List.suffix_rfl, by assumption⟩
    · cases h
  | cons c x ih =>
    intro m h
    unfold ending at h
    split at h
    · simp only [Option.some.injEq] at h; subst h; exact ⟨List.suffix_rfl, by assumption⟩
    · exact ⟨(ih m h).1.trans (List.suffix_cons c x), (ih m h).2⟩

theorem ending_self (body : List (Char → Bool)) (x : Text) (h : matchPat body x = some []) : ending body x = some x := by
  cases x <;> (unfold ending; rw [if_pos h])

theorem match_append (f g : List (Char → Bool)) : ∀ (t : Text), matchPat (f ++ g) t = (matchPat f t).bind (matchPat g) := by
  induction f with
  | nil => intro t; rfl
  | cons a f ih =>
    intro t
    cases t with
    | nil => rfl
    | cons c t =>
      simp only [List.cons_append, matchPat]
      split
      · exact ih t
      · rfl

theorem match_lit : ∀ (b t r : Text), matchPat (b.map (fun x c => c == x)) t = some r ↔ t = b ++ r := by
  intro b
  induction b with
  | nil => intro t r; simp [matchPat]
  | cons x b ih =>
    intro t r
    cases t with
    | nil => simp [matchPat]
    | cons c t =>
      simp only [List.map_cons, matchPat]
      by_cases h : c = x
      · subst h; simp [ih]
      · simp [h]

theorem match_cons (f : Char → Bool) (fs : List (Char → Bool)) (t : Text) :
    matchPat (f :: fs) t = some [] ↔ ∃ c r, t = c :: r ∧ f c = true ∧ matchPat fs r = some [] := by
  cases t with
  | nil => simp [matchPat]
  | cons c t =>
    simp only [matchPat, List.cons.injEq]
    constructor
    · intro h
      split at h
      · exact ⟨c, t, ⟨rfl, rfl⟩, by assumption, h⟩
      · cases h
    · rintro ⟨c', r, ⟨rfl, rfl⟩, h1, h2⟩
      rw [if_pos h1]; exact h2

theorem match_nil (t : Text) : matchPat [] t = some [] ↔ t = [] := by simp [matchPat]

/-- the pattern says what the name of an IOC is -/
theorem match_ioc (b m : Text) : matchPat (iocPat b) m = some [] ↔ IocOf b m := by
  unfold iocPat
  rw [match_append, Option.bind_eq_some_iff]
  constructor
  · rintro ⟨r, h1, h2⟩
    rw [match_lit] at h1
    subst h1
    simp only [match_cons, match_nil, beq_iff_eq, upper, digit, Bool.and_eq_true, decide_eq_true_eq] at h2
    obtain ⟨_, _, rfl, rfl, a, _, rfl, ha, b', _, rfl, hb, _, _, rfl, rfl, _, _, rfl, rfl, _, _, rfl, rfl, _, _, rfl, rfl, _, _, rfl, rfl,
      c, _, rfl, hc, d, _, rfl, hd, rfl⟩ := h2
    exact ⟨a, b', c, d, ha, hb, hc, hd, rfl⟩
  · rintro ⟨a, b', c, d, ha, hb, hc, hd, rfl⟩
    refine ⟨_, (match_lit _ _ _).2 rfl, ?_⟩
    simp only [match_cons, match_nil, beq_iff_eq, upper, digit, Bool.and_eq_true, decide_eq_true_eq]
    exact ⟨_, _, rfl, rfl, _, _, rfl, ha, _, _, rfl, hb, _, _, rfl, rfl, _, _, rfl, rfl, _, _, rfl, rfl, _, _, rfl, rfl, _, _, rfl, rfl,
      _, _, rfl, hc, _, _, rfl, hd, rfl⟩

theorem pat_rejects (b : Text) (x : Char) (hx : x ∉ b) (h1 : upper x = false) (h2 : digit x = false) (h3 : x ∉ ['-', 'I', 'O', 'C']) :
    ∀ f ∈ iocPat b, f x = false := by
  intro f hf
  unfold iocPat at hf
  simp only [List.mem_append, List.mem_map, List.mem_cons, List.not_mem_nil, or_false] at hf h3
  have n1 : x ≠ '-' := fun h => h3 (.inl h)
  have n2 : x ≠ 'I' := fun h => h3 (.inr (.inl h))
  have n3 : x ≠ 'O' := fun h => h3 (.inr (.inr (.inl h)))
  have n4 : x ≠ 'C' := fun h => h3 (.inr (.inr (.inr h)))
  rcases hf with ⟨y, hy, rfl⟩ | rfl | rfl | rfl | rfl | rfl | rfl | rfl | rfl | rfl | rfl
  · have : x ≠ y := fun h => hx (h ▸ hy)
    simpa using this
  all_goals first | assumption | simpa using n1 | simpa using n2 | simpa using n3 | simpa using n4

instance (b m : Text) : Decidable (IocOf b m) := decidable_of_iff _ (match_ioc b m)

theorem find_table (b : Text) (hb : Word b) : ∀ (lines : List (Text × Text)),
    (∀ l ∈ lines, Word l.1 ∧ Word l.2) → (∀ l ∈ lines, NoLonger b l.1) →
    findall (iocPat b ++ [(· == ' ')]) 0 (tableText lines) =
      ((lines.map (·.1)).filter (fun n => decide (IocOf b n))).map (· ++ [' ']) := by
  intro lines
  have hsp : ∀ f ∈ iocPat b, f ' ' = false := pat_rejects b ' ' hb.1 (by decide) (by decide) (by decide)
  have hnl : ∀ f ∈ iocPat b, f '\n' = false := pat_rejects b '\n' hb.2 (by decide) (by decide) (by decide)
  have hne : iocPat b ≠ [] := by unfold iocPat; simp
  induction lines with
  | nil => intro _ _; rfl
  | cons l ls ih =>
    intro hw hn
    have e : tableText (l :: ls) = l.1 ++ ' ' :: (l.2 ++ '\n' :: tableText ls) := by
      unfold tableText; simp
    obtain ⟨w1, w2⟩ := hw l List.mem_cons_self
    rw [e, find_name _ hsp hne _ _ w1.1, find_path _ hnl _ _ w2.1,
      ih (fun q hq => hw q (List.mem_cons_of_mem _ hq)) (fun q hq => hn q (List.mem_cons_of_mem _ hq))]
    rw [List.map_cons, List.filter_cons]
    by_cases h : IocOf b l.1
    · rw [ending_self _ _ ((match_ioc b l.1).2 h)]
      simp [h]
    · have : ending (iocPat b) l.1 = none := by
        cases hh : ending (iocPat b) l.1 with
        | none => rfl
        | some m =>
          obtain ⟨s1, s2⟩ := ending_suffix _ _ _ hh
          rw [match_ioc] at s2
          exact absurd (hn l List.mem_cons_self m s1 s2 ▸ s2) h
      rw [this]
      simp [h]

theorem split_ne (t : Text) : splitSpaces t ≠ [] := by
  cases t with
  | nil => simp [splitSpaces]
  | cons c t =>
    unfold splitSpaces
    split
    · simp
    · split <;> simp

theorem split_word : ∀ (w t : Text), ' ' ∉ w → splitSpaces (w ++ ' ' :: t) = w :: splitSpaces t := by
  intro w
  induction w with
  | nil => intro t _; simp [splitSpaces]
  | cons c w ih =>
    intro t hw
    have hc : c ≠ ' ' := by intro h; exact hw (h ▸ List.mem_cons_self)
    rw [List.cons_append, splitSpaces, if_neg hc, ih t (fun h => hw (List.mem_cons_of_mem _ h))]

theorem split_last : ∀ (w : Text), ' ' ∉ w → splitSpaces w = [w] := by
  intro w
  induction w with
  | nil => intro _; rfl
  | cons c w ih =>
    intro hw
    have hc : c ≠ ' ' := by intro h; exact hw (h ▸ List.mem_cons_self)
    unfold splitSpaces
    rw [if_neg hc, ih (fun h => hw (List.mem_cons_of_mem _ h))]

theorem split_each : ∀ (ns : List Text), (∀ n ∈ ns, ' ' ∉ n) → splitSpaces (ns.map (· ++ [' '])).flatten = ns ++ [[]] := by
  intro ns
  induction ns with
  | nil => intro _; rfl
  | cons n ns ih =>
    intro h
    rw [List.map_cons, List.flatten_cons, List.append_assoc]
    show splitSpaces (n ++ ' ' :: (ns.map (· ++ [' '])).flatten) = _
    rw [split_word n _ (h n List.mem_cons_self), ih (fun q hq => h q (List.mem_cons_of_mem _ hq))]
    rfl

theorem split_spaced : ∀ (ns : List Text), ns ≠ [] → (∀ n ∈ ns, ' ' ∉ n) → splitSpaces (spaced ns) = ns := by
  intro ns
  induction ns with
  | nil => intro h; exact absurd rfl h
  | cons n ns ih =>
    intro _ h
    cases ns with
    | nil =>
      have : spaced [n] = n := by simp [spaced, List.intercalate, List.intersperse]
      rw [this]
      exact split_last n (h n List.mem_cons_self)
    | cons m ms =>
      have : spaced (n :: m :: ms) = n ++ ' ' :: spaced (m :: ms) := by simp [spaced, List.intercalate, List.intersperse]
      rw [this, split_word n _ (h n List.mem_cons_self), ih (by simp) (fun q hq => h q (List.mem_cons_of_mem _ hq))]

/-- **C106**: the IOCs monitored with a list made from the redirect table are exactly those of the beamline that the table lists, in order; provided that no
name in it merely ends with the name of one. -/
theorem redirected_exactly_partial (yamlname : Text) (lines : List (Text × Text)) (hb : Word (yamlname.takeWhile (· ≠ '-')))
    (hw : ∀ l ∈ lines, Word l.1 ∧ Word l.2) (hn : ∀ l ∈ lines, NoLonger (yamlname.takeWhile (· ≠ '-')) l.1) :
    iocNames (redirectorIocs yamlname (tableText lines)) =
      (lines.map (·.1)).filter (fun n => decide (IocOf (yamlname.takeWhile (· ≠ '-')) n)) := by
  have := find_table _ hb lines hw hn
  unfold redirectorIocs beamlineOf iocNames
  rw [this]
  dsimp only
  rw [split_each]
  · simp
  · intro n h
    obtain ⟨l, hl, rfl⟩ := List.mem_map.1 (List.mem_filter.1 h).1
    exact (hw l hl).1.1

/-- a name of the usual form is never too long -/
theorem usual_name (b b' t : Text) (hl : b'.length ≤ b.length) (ht : IocOf b' t) : NoLonger b t := by
  intro m hm ⟨a, b2, c, d, _, _, _, _, e⟩
  obtain ⟨a', b2', c', d', _, _, _, _, rfl⟩ := ht
  subst e
  have h1 := hm.length_le
  simp only [List.length_append, List.length_cons, List.length_nil] at h1
  exact hm.eq_of_length (by simp only [List.length_append, List.length_cons, List.length_nil]; omega)

/-- **C106**: the IOCs monitored with a list that a user wrote, separated by single spaces, are exactly those. -/
theorem listed_exactly_partial (names : List Text) (hw : ∀ n ∈ names, ' ' ∉ n ∧ n ≠ []) :
    iocNames (spaced names) = names ∧ iocNames (names.map (· ++ [' '])).flatten = names := by
  refine ⟨?_, ?_⟩
  · cases names with
    | nil => rfl
    | cons n ns =>
      unfold iocNames
      rw [split_spaced (n :: ns) (by simp) (fun q hq => (hw q hq).1)]
      dsimp only
      rw [if_neg]
      intro h
      obtain ⟨hne, h⟩ := List.getLast?_eq_some_iff.1 h
      exact (hw [] (by rw [h]; simp)).2 rfl
  · unfold iocNames
    rw [split_each names (fun q hq => (hw q hq).1)]
    simp

example : iocNames (redirectorIocs "TS01I-ML-MALC-01".toList
    (tableText [("TS01I-EA-IOC-01".toList, "/a".toList), ("TS01I-gui".toList, "/b".toList), ("ME99P-XX-IOC-99".toList, "/c".toList),
      ("TS01I-TS-IOC-69".toList, "/TS01I-TS-IOC-70".toList)])) = ["TS01I-EA-IOC-01".toList, "TS01I-TS-IOC-69".toList] := by decide +kernel

/-- Finding: an IOC of another beamline whose name ends the same way is taken for one of this beamline, under a name that does not exist. -/
theorem other_beamline : iocNames (redirectorIocs "S01I-ML-MALC-01".toList (tableText [("TS01I-EA-IOC-01".toList, "/a".toList)])) = ["S01I-EA-IOC-01".toList] ∧
    ¬ IocOf "S01I".toList "TS01I-EA-IOC-01".toList := by decide +kernel

/-- Finding: a list with two spaces in a row has an IOC without a name in it. -/
theorem two_spaces : iocNames "TS01I-EA-IOC-01  TS01I-EA-IOC-02".toList = ["TS01I-EA-IOC-01".toList, [], "TS01I-EA-IOC-02".toList] := by decide +kernel

/-! ### what it tells about itself -/

/-- **C106**: health is OK exactly if the block is Ready and the YAML file is of a known version; a block that is Disabled or in Fault says so. -/
theorem health_told (v : Text) (s : State) :
    (health v s = .ok ↔ s = .ready ∧ v ≠ "work".toList ∧ v ≠ "unknown".toList) ∧ (s = .disabled ↔ health v s = .disabled) ∧
      (s = .fault ↔ health v s = .failed) := by
  unfold health
  by_cases h : v = "work".toList ∨ v = "unknown".toList
  · rw [if_pos h]
    have h' : ¬ (v ≠ "work".toList ∧ v ≠ "unknown".toList) := by
      rintro ⟨h1, h2⟩
      rcases h with h | h
      · exact h1 h
      · exact h2 h
    cases s
    · exact ⟨⟨(fun hh => by cases hh), (fun hh => by cases hh.1)⟩, ⟨fun _ => rfl, fun _ => rfl⟩, ⟨(fun hh => by cases hh), (fun hh => by cases hh)⟩⟩
    · exact ⟨⟨(fun hh => by cases hh), fun hh => absurd hh.2 h'⟩, ⟨(fun hh => by cases hh), (fun hh => by cases hh)⟩, ⟨(fun hh => by cases hh), (fun hh => by cases hh)⟩⟩
    · exact ⟨⟨(fun hh => by cases hh), (fun hh => by cases hh.1)⟩, ⟨(fun hh => by cases hh), (fun hh => by cases hh)⟩, ⟨fun _ => rfl, fun _ => rfl⟩⟩
  · rw [if_neg h]
    have h' : v ≠ "work".toList ∧ v ≠ "unknown".toList := ⟨fun hh => h (.inl hh), fun hh => h (.inr hh)⟩
    cases s
    · exact ⟨⟨(fun hh => by cases hh), (fun hh => by cases hh.1)⟩, ⟨fun _ => rfl, fun _ => rfl⟩, ⟨(fun hh => by cases hh), (fun hh => by cases hh)⟩⟩
    · exact ⟨⟨fun _ => ⟨rfl, h'⟩, fun _ => rfl⟩, ⟨(fun hh => by cases hh), (fun hh => by cases hh)⟩, ⟨(fun hh => by cases hh), (fun hh => by cases hh)⟩⟩
    · exact ⟨⟨(fun hh => by cases hh), (fun hh => by cases hh.1)⟩, ⟨(fun hh => by cases hh), (fun hh => by cases hh)⟩, ⟨fun _ => rfl, fun _ => rfl⟩⟩

/-- **C106**: the version told of a file in the work area is `work`, of one in the prod area the tag it is checked out at, of one that is in neither
(and no directory whose name begins like them) `unknown`. -/
theorem version_told_partial (work prod rest : Text) (path : Text) (tag : Text) (ht : '\n' ∉ tag) (hw : ¬ work <+: prod ++ '/' :: rest) :
    yamlVersion (work ++ '/' :: rest) work prod (some (tag ++ ['\n'])) = "work".toList ∧
      yamlVersion (prod ++ '/' :: rest) work prod (some (tag ++ ['\n'])) = tag ∧
      yamlVersion (prod ++ '/' :: rest) work prod none = "Prod (unknown version)".toList ∧
      (¬ work <+: path → ¬ prod <+: path → ∀ g, yamlVersion path work prod g = "unknown".toList) := by
  have e1 : work.isPrefixOf (work ++ '/' :: rest) = true := List.isPrefixOf_iff_prefix.2 (List.prefix_append _ _)
  have e2 : prod.isPrefixOf (prod ++ '/' :: rest) = true := List.isPrefixOf_iff_prefix.2 (List.prefix_append _ _)
  have e3 : ¬ work.isPrefixOf (prod ++ '/' :: rest) = true := fun h => hw (List.isPrefixOf_iff_prefix.1 h)
  have hs : stripNewlines (tag ++ ['\n']) = tag := by
    unfold stripNewlines
    cases tag with
    | nil => rfl
    | cons c t =>
      have hc : c ≠ '\n' := fun h => ht (h ▸ List.mem_cons_self)
      have h1 : (c :: t ++ ['\n']).dropWhile (fun x => decide (x = '\n')) = c :: t ++ ['\n'] := by
        rw [List.cons_append, List.dropWhile_cons_of_neg (by simpa using hc)]
      rw [h1, List.reverse_append, List.reverse_singleton, List.singleton_append, List.dropWhile_cons_of_pos (by simp)]
      have h2 : ∀ (l : Text), '\n' ∉ l → l.dropWhile (fun x => decide (x = '\n')) = l := by
        intro l hl
        cases l with
        | nil => rfl
        | cons x l =>
          have hx : x ≠ '\n' := fun h => hl (h ▸ List.mem_cons_self)
          exact List.dropWhile_cons_of_neg (by simpa using hx)
      rw [h2 _ (fun h => ht (List.mem_reverse.1 h)), List.reverse_reverse]
  unfold yamlVersion
  refine ⟨by rw [if_pos e1], by rw [if_neg e3, if_pos e2]; exact hs, by rw [if_neg e3, if_pos e2], ?_⟩
  intro h1 h2 g
  rw [if_neg (fun h => h1 (List.isPrefixOf_iff_prefix.1 h)), if_neg (fun h => h2 (List.isPrefixOf_iff_prefix.1 h))]

example : yamlVersion "/dls_sw/prod/ioc/a.yaml".toList "/dls_sw/work".toList "/dls_sw/prod".toList (some "1-2\n".toList) = "1-2".toList ∧
    ¬ ("/dls_sw/work".toList <+: "/dls_sw/prod".toList ++ '/' :: "ioc/a.yaml".toList) := by
  refine ⟨by decide +kernel, fun h => ?_⟩
  have := List.isPrefixOf_iff_prefix.2 h
  revert this; decide +kernel

/-- Finding: a file in another directory whose name begins like the work area is told to be in it. -/
theorem other_area : yamlVersion "/dls_sw/workshop/a.yaml".toList "/dls_sw/work".toList "/dls_sw/prod".toList none = "work".toList := by decide +kernel

/-- **C106**: the host name shown always fits an EPICS string (40 characters with the one at its end), and is the name itself if that fits. -/
theorem host_fits (name : Text) : (shownHost name).length < 40 ∧ (name.length < 39 → shownHost name = name) ∧ name.take 35 <+: shownHost name := by
  unfold shownHost
  by_cases h : name.length < 39
  · rw [if_pos h]; exact ⟨by omega, fun _ => rfl, List.take_prefix _ _⟩
  · rw [if_neg h]
    refine ⟨?_, fun h' => absurd h' h, List.prefix_append _ _⟩
    have : ("...".toList : Text).length = 3 := rfl
    rw [List.length_append, List.length_take, this]; omega

example : shownHost "a-very-long-name-of-a-machine-in-an-organisation".toList = "a-very-long-name-of-a-machine-in-an...".toList := by decide +kernel

/-! ### its life -/

/-- what is registered for the hooks of the process -/
theorem hooks_are : (registerAll registrations []).getD [] = [(PHook.start, (Fn.init, [])), (PHook.stop, (Fn.stopIoc, []))] := rfl

theorem addBlocks_spec : ∀ (ms : List Text) (s : Sys),
    (addBlocks ms s).1 = { s with blocks := (addBlocks ms s).1.blocks } ∧
      (ms.Nodup → (∀ m ∈ ms, m ∉ s.blocks) → addBlocks ms s = ({ s with blocks := s.blocks ++ ms }, true)) := by
  intro ms
  induction ms with
  | nil => intro s; exact ⟨rfl, fun _ _ => by simp [addBlocks]⟩
  | cons m ms ih =>
    intro s
    constructor
    · unfold addBlocks
      split
      · rfl
      · exact (ih _).1
    · intro hn hf
      have hn := List.nodup_cons.1 hn
      rw [addBlocks, if_neg (hf m List.mem_cons_self), (ih _).2 hn.2]
      · simp
      · intro x hx hh
        rcases List.mem_append.1 hh with hh | hh
        · exact hf x (List.mem_cons_of_mem _ hx) hh
        · rcases List.mem_singleton.1 hh with rfl
          exact hn.1 hx

theorem addParts_spec : ∀ (ns : List Text) (s : Sys),
    (addParts ns s).1 = { s with parts := (addParts ns s).1.parts } ∧
      (ns.Nodup → (∀ n ∈ ns, n ∉ s.parts) → addParts ns s = ({ s with parts := s.parts ++ ns }, true)) := by
  intro ns
  induction ns with
  | nil => intro s; exact ⟨rfl, fun _ _ => by simp [addParts]⟩
  | cons m ms ih =>
    intro s
    constructor
    · unfold addParts
      split
      · rfl
      · exact (ih _).1
    · intro hn hf
      have hn := List.nodup_cons.1 hn
      rw [addParts, if_neg (hf m List.mem_cons_self), (ih _).2 hn.2]
      · simp
      · intro x hx hh
        rcases List.mem_append.1 hh with hh | hh
        · exact hf x (List.mem_cons_of_mem _ hx) hh
        · rcases List.mem_singleton.1 hh with rfl
          exact hn.1 hx

theorem initBlock_spec (names : List Text) (e : Env) (s : Sys) :
    ((initBlock names e s).ioc = s.ioc ∧ (initBlock names e s).running = s.running) ∨
      (s.ioc = false ∧ (initBlock names e s).ioc = true ∧ (initBlock names e s).running = s.running + 1) := by
  unfold initBlock launch
  by_cases h1 : s.ioc = true
  · rw [if_pos h1]
    left
    dsimp only
    have hb := (addBlocks_spec (names.map statusMri) s).1
    split
    · have hp := (addParts_spec names (addBlocks (names.map statusMri) s).1).1
      split
      · dsimp only; rw [hp]; dsimp only; rw [hb]; exact ⟨rfl, rfl⟩
      · rw [hp]; dsimp only; rw [hb]; exact ⟨rfl, rfl⟩
    · rw [hb]; exact ⟨rfl, rfl⟩
  · rw [if_neg h1]
    by_cases h2 : (e.base && e.popen) = true
    · rw [if_pos h2]
      right
      refine ⟨by simpa using h1, ?_⟩
      dsimp only
      generalize hq : ({ s with ioc := true, running := s.running + 1 } : Sys) = q
      have q1 : q.ioc = true := by rw [← hq]
      have q2 : q.running = s.running + 1 := by rw [← hq]
      have hb := (addBlocks_spec (names.map statusMri) q).1
      split
      · have hp := (addParts_spec names (addBlocks (names.map statusMri) q).1).1
        split
        · dsimp only; rw [hp]; dsimp only; rw [hb]; exact ⟨q1, q2⟩
        · rw [hp]; dsimp only; rw [hb]; exact ⟨q1, q2⟩
      · rw [hb]; exact ⟨q1, q2⟩
    · rw [if_neg h2]
      exact .inl ⟨rfl, rfl⟩

theorem init_fine (names : List Text) (e : Env) (s : Sys) (he : Fine e) (hf : Free names s.blocks s.parts) (hi : s.ioc = false) :
    initBlock names e s = { s with ioc := true, running := s.running + 1, blocks := s.blocks ++ names.map (· ++ ":STATUS".toList),
                                   parts := s.parts ++ names, state := .ready } := by
  unfold initBlock launch
  rw [if_neg (by simp [hi]), if_pos (by simp [he.1, he.2.1])]
  dsimp only
  rw [(addBlocks_spec _ _).2]
  · dsimp only
    rw [if_pos rfl, (addParts_spec _ _).2 hf.once (by intro n hn; exact hf.parts n hn)]
    dsimp only
    rw [if_pos rfl, if_pos he.2.2]
    rfl
  · refine List.Pairwise.map _ ?_ hf.once
    intro a b hab h
    exact hab (List.append_cancel_right h)
  · intro m hm
    obtain ⟨n, hn, rfl⟩ := List.mem_map.1 hm
    exact hf.blocks n hn

/-- **C106**: whatever happens there is at most one softIoc running, and none when the process is not started. -/
theorem one_ioc (iocList : Text) (blocks parts : List Text) (ops : List Op) :
    (run iocList blocks parts ops).running ≤ 1 ∧ ((run iocList blocks parts ops).proc ≠ .started → (run iocList blocks parts ops).running = 0) := by
  unfold run
  rw [hooks_are]
  suffices hh : ∀ (ops : List Op) (s : Sys), (s.running ≤ if s.ioc then 1 else 0) ∧ (s.proc ≠ .started → s.ioc = false) →
      (let t := ops.foldl (step [(PHook.start, (Fn.init, [])), (PHook.stop, (Fn.stopIoc, []))] (iocNames iocList)) s
       (t.running ≤ if t.ioc then 1 else 0) ∧ (t.proc ≠ .started → t.ioc = false)) by
    obtain ⟨h1, h2⟩ := hh ops { blocks := blocks, parts := parts } ⟨by simp, fun _ => rfl⟩
    refine ⟨?_, fun h => ?_⟩
    · split at h1 <;> omega
    · rw [h2 h] at h1
      simpa using h1
  intro ops
  induction ops with
  | nil => intro s h; exact h
  | cons op ops ih =>
    intro s h
    rw [List.foldl_cons]
    apply ih
    obtain ⟨h1, h2⟩ := h
    cases op with
    | start e =>
      unfold step
      dsimp only
      split
      · rename_i hp
        refine ⟨?_, fun h => absurd rfl h⟩
        have hi := h2 (by rw [hp]; decide)
        show (initBlock (iocNames iocList) e s).running ≤ if (initBlock (iocNames iocList) e s).ioc then 1 else 0
        rcases initBlock_spec (iocNames iocList) e s with ⟨i1, i2⟩ | ⟨i0, i1, i2⟩
        · rw [i1, i2]; exact h1
        · rw [i1, i2, if_pos rfl]; rw [i0] at h1; simp at h1; omega
      · exact ⟨h1, h2⟩
    | stop e =>
      unfold step
      dsimp only
      split
      · have : stopIoc s = stopIoc s := rfl
        show ((stopIoc s).running ≤ if (stopIoc s).ioc then 1 else 0) ∧ (Proc.stopped ≠ .started → (stopIoc s).ioc = false)
        unfold stopIoc
        split
        · rename_i hi
          rw [hi, if_pos rfl] at h1
          refine ⟨?_, fun _ => rfl⟩
          simp; omega
        · rename_i hi
          have hi : s.ioc = false := by simpa using hi
          rw [hi] at h1 ⊢
          exact ⟨h1, fun _ => rfl⟩
      · exact ⟨h1, h2⟩
    | disable ok => unfold step; dsimp only; split <;> exact ⟨h1, h2⟩
    | reset ok => unfold step; dsimp only; split <;> exact ⟨h1, h2⟩
    | iocEnds => exact ⟨Nat.zero_le _, h2⟩

/-- what a good start leads to -/
def afterStart (iocList : Text) (blocks parts : List Text) : Sys where
  proc := .started
  blocks := blocks ++ (iocNames iocList).map (· ++ ":STATUS".toList)
  parts := parts ++ iocNames iocList
  state := .ready
  ioc := true
  running := 1

/-- **C106**: in a process that starts well, and as long as it is started, whatever users do: there is a status block and a part for each IOC in the list, in order
after what was there, and the softIoc runs unless it ended by itself; right after the start the block is Ready. -/
theorem started_right (iocList : Text) (blocks parts : List Text) (e : Env) (he : Fine e) (hf : Free (iocNames iocList) blocks parts) (ops : List Op) :
    let s := run iocList blocks parts (.start e :: ops)
    (s.proc = .started → s.blocks = blocks ++ (iocNames iocList).map (· ++ ":STATUS".toList) ∧ s.parts = parts ++ iocNames iocList ∧
      (.iocEnds ∉ ops → s.running = 1)) ∧ (ops = [] → s.proc = .started ∧ s.state = .ready) := by
  have h0 : run iocList blocks parts [.start e] = afterStart iocList blocks parts := by
    unfold run afterStart
    rw [hooks_are]
    show { initBlock (iocNames iocList) e { blocks := blocks, parts := parts } with proc := .started } = _
    rw [init_fine _ e _ he hf rfl]
  have h1 : run iocList blocks parts (.start e :: ops) =
      ops.foldl (step ((registerAll registrations []).getD []) (iocNames iocList)) (run iocList blocks parts [.start e]) := rfl
  dsimp only
  refine ⟨?_, ?_⟩
  · rw [h1, h0, hooks_are]
    suffices hh : ∀ (ops : List Op) (s : Sys), (s.proc ≠ .fresh ∧ (s.proc = .started →
        s.blocks = blocks ++ (iocNames iocList).map (· ++ ":STATUS".toList) ∧ s.parts = parts ++ iocNames iocList)) →
        (let t := ops.foldl (step [(PHook.start, (Fn.init, [])), (PHook.stop, (Fn.stopIoc, []))] (iocNames iocList)) s
         (t.proc = .started → t.blocks = blocks ++ (iocNames iocList).map (· ++ ":STATUS".toList) ∧ t.parts = parts ++ iocNames iocList ∧ s.proc = .started ∧
          (.iocEnds ∉ ops → t.running = s.running))) by
      intro h
      obtain ⟨a, b, _, c⟩ := hh ops _ ⟨(by simp [afterStart]), fun _ => ⟨rfl, rfl⟩⟩ h
      exact ⟨a, b, c⟩
    intro ops
    induction ops with
    | nil => intro s h; dsimp only; intro hs; exact ⟨(h.2 hs).1, (h.2 hs).2, hs, fun _ => rfl⟩
    | cons op ops ih =>
      intro s h
      dsimp only
      rw [List.foldl_cons]
      intro hs
      have hn : .iocEnds ∉ op :: ops → Op.iocEnds ∉ ops := fun h h' => h (List.mem_cons_of_mem _ h')
      cases op with
      | start e' =>
        have : step [(PHook.start, (Fn.init, [])), (PHook.stop, (Fn.stopIoc, []))] (iocNames iocList) s (.start e') = s := if_neg h.1
        rw [this] at hs ⊢
        obtain ⟨a, b, c, d⟩ := ih s h hs
        exact ⟨a, b, c, fun hh => d (hn hh)⟩
      | stop e' =>
        by_cases hp : s.proc = .started
        · exfalso
          have hq : (step [(PHook.start, (Fn.init, [])), (PHook.stop, (Fn.stopIoc, []))] (iocNames iocList) s (.stop e')).proc = .stopped := by
            unfold step; dsimp only; rw [if_pos hp]
          have := (ih _ ⟨by rw [hq]; decide, fun h => by rw [hq] at h; cases h⟩ hs).2.2.1
          rw [hq] at this; cases this
        · have : step [(PHook.start, (Fn.init, [])), (PHook.stop, (Fn.stopIoc, []))] (iocNames iocList) s (.stop e') = s := if_neg hp
          rw [this] at hs ⊢
          obtain ⟨a, b, c, d⟩ := ih s h hs
          exact ⟨a, b, c, fun hh => d (hn hh)⟩
      | disable ok =>
        have key : ∀ t : Sys, t.proc = s.proc → t.blocks = s.blocks → t.parts = s.parts → t.running = s.running →
            (ops.foldl (step [(PHook.start, (Fn.init, [])), (PHook.stop, (Fn.stopIoc, []))] (iocNames iocList)) t).proc = .started → _ :=
          fun t t1 t2 t3 t4 hs => by
            have := ih t ⟨t1 ▸ h.1, fun hp => by rw [t2, t3]; exact h.2 (t1 ▸ hp)⟩ hs
            rw [t1, t4] at this
            exact this
        have := key _ (by unfold step; dsimp only; split <;> rfl) (by unfold step; dsimp only; split <;> rfl) (by unfold step; dsimp only; split <;> rfl) (by unfold step; dsimp only; split <;> rfl) hs
        exact ⟨this.1, this.2.1, this.2.2.1, fun hh => this.2.2.2 (hn hh)⟩
      | reset ok =>
        have key : ∀ t : Sys, t.proc = s.proc → t.blocks = s.blocks → t.parts = s.parts → t.running = s.running →
            (ops.foldl (step [(PHook.start, (Fn.init, [])), (PHook.stop, (Fn.stopIoc, []))] (iocNames iocList)) t).proc = .started → _ :=
          fun t t1 t2 t3 t4 hs => by
            have := ih t ⟨t1 ▸ h.1, fun hp => by rw [t2, t3]; exact h.2 (t1 ▸ hp)⟩ hs
            rw [t1, t4] at this
            exact this
        have := key _ (by unfold step; dsimp only; split <;> rfl) (by unfold step; dsimp only; split <;> rfl) (by unfold step; dsimp only; split <;> rfl) (by unfold step; dsimp only; split <;> rfl) hs
        exact ⟨this.1, this.2.1, this.2.2.1, fun hh => this.2.2.2 (hn hh)⟩
      | iocEnds =>
        obtain ⟨a, b, c, d⟩ := ih { s with running := 0 } h hs
        exact ⟨a, b, c, fun hh => absurd List.mem_cons_self hh⟩
  · rintro rfl
    rw [h0]
    exact ⟨rfl, rfl⟩

/-- the list of an example -/
def exList : Text := "TS01I-EA-IOC-01 TS01I-EA-IOC-02 ".toList

example : Free (iocNames exList) ["TS".toList, "TS:WEB".toList] ["WEB".toList] ∧ Fine {} :=
  ⟨⟨by decide +kernel, by decide +kernel, by decide +kernel⟩, ⟨rfl, rfl, rfl⟩⟩

example : run exList ["TS".toList] ["WEB".toList] [.start {}, .disable true, .reset true] =
    { proc := .started, blocks := ["TS".toList, "TS01I-EA-IOC-01:STATUS".toList, "TS01I-EA-IOC-02:STATUS".toList],
      parts := ["WEB".toList, "TS01I-EA-IOC-01".toList, "TS01I-EA-IOC-02".toList], state := .ready, ioc := true, running := 1 } := by decide +kernel

/-- Finding: the function that stops the IOC takes the place of the one that halts the block, so when the process stops the block stays Ready and its parts are not halted. -/
theorem not_halted : (run exList ["TS".toList] [] [.start {}, .stop {}]).state = .ready ∧ (run exList ["TS".toList] [] [.start {}, .stop {}]).halted = false ∧
    ¬ LastFor registrations .stop .halt ∧ LastFor registrations .stop .stopIoc := by
  obtain ⟨_, h⟩ := last_registered registrations
  refine ⟨by decide +kernel, by decide +kernel, fun hh => ?_, ?_⟩
  · have := (h _ rfl .stop .halt).2 hh
    cases this
  · exact (h _ rfl .stop .stopIoc).1 rfl

/-- Finding: when the softIoc cannot be started the block is left Disabled, not in Fault; and after a reset() it is Ready without IOC and without status blocks. -/
theorem ready_without_ioc : (run exList ["TS".toList] [] [.start { base := false }]).state = .disabled ∧
    (run exList ["TS".toList] [] [.start { base := false }, .reset true]) =
      { proc := .started, blocks := ["TS".toList], parts := [], state := .ready } := by decide +kernel

/-- Finding: when an IOC is listed twice the block does not get Ready, and the status block of those before it are there but were never started. -/
theorem listed_twice : (run "A-IOC B-IOC A-IOC".toList [] [] [.start {}]) =
    { proc := .started, blocks := ["A-IOC:STATUS".toList, "B-IOC:STATUS".toList], parts := [], state := .disabled, ioc := true, running := 1 } := by
  decide +kernel

theorem addBlocks_iff : ∀ (ms : List Text) (s : Sys), (addBlocks ms s).2 = true ↔ ms.Nodup ∧ ∀ m ∈ ms, m ∉ s.blocks := by
  intro ms
  induction ms with
  | nil => intro s; simp [addBlocks]
  | cons m ms ih =>
    intro s
    rw [addBlocks]
    split
    · rename_i h
      simp only [Bool.false_eq_true, false_iff]
      intro hh; exact hh.2 m List.mem_cons_self h
    · rename_i h
      rw [ih, List.nodup_cons]
      constructor
      · intro ⟨a, b⟩
        refine ⟨⟨fun hm => b m hm (by simp), a⟩, ?_⟩
        intro x hx
        rcases List.mem_cons.1 hx with rfl | hx
        · exact h
        · exact fun hh => b x hx (List.mem_append_left _ hh)
      · intro ⟨⟨a, b⟩, c⟩
        refine ⟨b, fun x hx hh => ?_⟩
        rcases List.mem_append.1 hh with hh | hh
        · exact c x (List.mem_cons_of_mem _ hx) hh
        · rcases List.mem_singleton.1 hh with rfl
          exact a hx

theorem addParts_iff : ∀ (ns : List Text) (s : Sys), (addParts ns s).2 = true ↔ ns.Nodup ∧ ∀ n ∈ ns, n ∉ s.parts := by
  intro ns
  induction ns with
  | nil => intro s; simp [addParts]
  | cons m ms ih =>
    intro s
    rw [addParts]
    split
    · rename_i h
      simp only [Bool.false_eq_true, false_iff]
      intro hh; exact hh.2 m List.mem_cons_self h
    · rename_i h
      rw [ih, List.nodup_cons]
      constructor
      · intro ⟨a, b⟩
        refine ⟨⟨fun hm => b m hm (by simp), a⟩, ?_⟩
        intro x hx
        rcases List.mem_cons.1 hx with rfl | hx
        · exact h
        · exact fun hh => b x hx (List.mem_append_left _ hh)
      · intro ⟨⟨a, b⟩, c⟩
        refine ⟨b, fun x hx hh => ?_⟩
        rcases List.mem_append.1 hh with hh | hh
        · exact c x (List.mem_cons_of_mem _ hx) hh
        · rcases List.mem_singleton.1 hh with rfl
          exact a hx

/-- **C106**: the block is Ready after the start just if everything went well and each IOC is listed once, under a name that is not taken. -/
theorem ready_iff (iocList : Text) (blocks parts : List Text) (e : Env) :
    (run iocList blocks parts [.start e]).state = .ready ↔ Fine e ∧ Free (iocNames iocList) blocks parts := by
  constructor
  · intro h
    unfold run at h
    rw [hooks_are] at h
    change (initBlock (iocNames iocList) e { blocks := blocks, parts := parts }).state = .ready at h
    unfold initBlock launch at h
    rw [if_neg (by simp)] at h
    by_cases h2 : (e.base && e.popen) = true
    · rw [if_pos h2] at h
      dsimp only at h
      generalize hq : ({ blocks := blocks, parts := parts, ioc := true, running := 0 + 1 } : Sys) = q at h
      have qb : q.blocks = blocks := by rw [← hq]
      have qp : q.parts = parts := by rw [← hq]
      have qs : q.state = .disabled := by rw [← hq]
      have hb := addBlocks_spec ((iocNames iocList).map statusMri) q
      split at h
      · rename_i hb2
        have hb3 := (addBlocks_iff _ q).1 hb2
        have hp := addParts_spec (iocNames iocList) (addBlocks ((iocNames iocList).map statusMri) q).1
        split at h
        · rename_i hp2
          have hp3 := (addParts_iff _ _).1 hp2
          rw [hb.1] at hp3
          dsimp only at hp3
          refine ⟨⟨?_, ?_, ?_⟩, ⟨hp3.1, ?_, ?_⟩⟩
          · exact (Bool.and_eq_true_iff.1 h2).1
          · exact (Bool.and_eq_true_iff.1 h2).2
          · dsimp only at h
            cases hh : e.hooks
            · rw [hh] at h; cases h
            · rfl
          · intro n hn
            rw [← qb]; exact hb3.2 _ (List.mem_map.2 ⟨n, hn, rfl⟩)
          · intro n hn
            rw [← qp]; exact hp3.2 n hn
        · rw [hp.1] at h; dsimp only at h; rw [hb.1] at h; dsimp only at h; rw [qs] at h; cases h
      · rw [hb.1] at h; dsimp only at h; rw [qs] at h; cases h
    · rw [if_neg h2] at h; cases h
  · rintro ⟨he, hf⟩
    exact ((started_right iocList blocks parts e he hf []).2 rfl).2

/-- **C106**: reset() is refused while the block is Ready, and both calls when the process is not started. -/
theorem calls_refused (iocList : Text) (blocks parts : List Text) (ops : List Op) (ok : Bool) :
    ((run iocList blocks parts ops).state = .ready → run iocList blocks parts (ops ++ [.reset ok]) = run iocList blocks parts ops) ∧
    ((run iocList blocks parts ops).proc ≠ .started → run iocList blocks parts (ops ++ [.reset ok]) = run iocList blocks parts ops ∧
      run iocList blocks parts (ops ++ [.disable ok]) = run iocList blocks parts ops) := by
  have e : ∀ o, run iocList blocks parts (ops ++ [o]) =
      step ((registerAll registrations []).getD []) (iocNames iocList) (run iocList blocks parts ops) o := by
    intro o; unfold run; rw [List.foldl_append]; rfl
  rw [e, e]
  refine ⟨fun h => ?_, fun h => ⟨?_, ?_⟩⟩
  · rw [step, if_neg (fun hh => hh.2 h)]
  · rw [step, if_neg (fun hh => h hh.1)]
  · rw [step, if_neg h]

end Verif.Props.SysBlock
