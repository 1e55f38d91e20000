import Verif.Model.Tags
/-!
C26: port and config tags survive encoding.
-/
namespace Verif.Props.Tags
open Verif.Tags

/-- A tag that says something about a port -/
def IsPort (t : Text) : Prop := sourcePre <+: t ∨ sinkPre <+: t

/-- The tag that is written for a port -/
def written (isSource : Bool) (p : Port) (v : Text) : Text := if isSource then sourcePortTag p v else sinkPortTag p v

theorem lastColon_none {l : Text} (h : ':' ∉ l) : lastColon l = none := by
  induction l with
  | nil => rfl
  | cons c cs ih =>
    simp only [List.mem_cons, not_or] at h
    simp [lastColon, ih h.2, Ne.symm h.1]

theorem lastColon_some {l : Text} (h : ':' ∈ l) : ∃ a b, lastColon l = some (a, b) ∧ l = a ++ ':' :: b ∧ ':' ∉ b := by
  induction l with
  | nil => simp at h
  | cons c cs ih =>
    by_cases hc : ':' ∈ cs
    · obtain ⟨a, b, e, el, hb⟩ := ih hc
      exact ⟨c :: a, b, by simp [lastColon, e], by simp [el], hb⟩
    · have hcc : c = ':' := by
        rcases List.mem_cons.1 h with h | h
        · exact h.symm
        · exact absurd h hc
      exact ⟨[], cs, by simp [lastColon, lastColon_none hc, hcc], by simp [hcc], hc⟩

theorem lastColon_append (a b : Text) (h : ':' ∉ b) : lastColon (a ++ ':' :: b) = some (a, b) := by
  induction a with
  | nil => simp [lastColon, lastColon_none h]
  | cons c a ih => simp [lastColon, ih]

theorem value_clean (p : Port) : ':' ∉ p.value ∧ '\n' ∉ p.value := by cases p <;> decide

theorem ofValue_value (p : Port) : Port.ofValue p.value = some p := by cases p <;> decide

theorem ofValue_some {v : Text} {p : Port} (h : Port.ofValue v = some p) : v = p.value := by
  have := List.find?_some h
  simpa using (of_decide_eq_true this).symm

theorem after_append (pre t : Text) : after pre (pre ++ t) = some t := by simp [after]

theorem after_none {pre t : Text} (h : ¬ pre <+: t) : after pre t = none := by
  simp [after, h]

theorem takeWhile_all {l m : Text} (h : '\n' ∉ l) : (l ++ m).takeWhile (· ≠ '\n') = l ++ m.takeWhile (· ≠ '\n') := by
  induction l with
  | nil => rfl
  | cons c l ih =>
    simp only [List.mem_cons, not_or] at h
    simp only [List.cons_append]
    rw [List.takeWhile_cons_of_pos (by simpa using Ne.symm h.1), ih h.2]

/-- What a written tag matches: the text after the last colon of its first line -/
theorem match_written (s : Bool) (p : Port) (v : Text) :
    portMatch (written s p v) = (lastColon (p.value ++ ':' :: v.takeWhile (· ≠ '\n'))).map fun g => (s, g) := by
  have key : (p.value ++ ':' :: v).takeWhile (· ≠ '\n') = p.value ++ ':' :: v.takeWhile (· ≠ '\n') := by
    rw [takeWhile_all (value_clean p).2, List.takeWhile_cons_of_pos (by decide)]
  cases s
  · have h1 : ¬ sourcePre <+: written false p v := by
      rintro ⟨t, ht⟩
      simp [written, sinkPortTag, sourcePre, sinkPre] at ht
    simp only [portMatch, after_none h1]
    simp only [written, sinkPortTag, Bool.false_eq_true, if_false, List.append_assoc, after_append, key]
  · simp only [portMatch, written, sourcePortTag, if_true, List.append_assoc, after_append, key]

theorem details_skip {pre tags : List Text} (h : ∀ t ∈ pre, ¬ IsPort t) : portTagDetails (pre ++ tags) = portTagDetails tags := by
  induction pre with
  | nil => rfl
  | cons t pre ih =>
    have ht := h t (by simp)
    simp only [IsPort, not_or] at ht
    simp only [List.cons_append, portTagDetails, portMatch, after_none ht.1, after_none ht.2]
    exact ih fun t ht => h t (by simp [ht])

/-- C26, partial. The port tag that is written is read back as the same direction, type and value, among any other tags:
those before it that are not port tags and any after it.
Missing: values with a colon or a line end, see `colon_rejected` and `line_end_cuts`. -/
theorem port_read_back_partial (s : Bool) (p : Port) (v : Text) (hc : ':' ∉ v) (hn : '\n' ∉ v) (pre post : List Text)
    (hpre : ∀ t ∈ pre, ¬ IsPort t) : portTagDetails (pre ++ written s p v :: post) = .found s p v := by
  rw [details_skip hpre]
  have ht : v.takeWhile (· ≠ '\n') = v := by
    have := takeWhile_all (l := v) (m := []) hn
    simpa using this
  simp only [portTagDetails, match_written, ht, lastColon_append _ _ hc, Option.map_some, ofValue_value]

example : portTagDetails ["widget:combo".toList, written true .bool "PCAP.ACTIVE".toList, "config:1".toList]
    = .found true .bool "PCAP.ACTIVE".toList :=
  port_read_back_partial true .bool _ (by decide) (by decide) ["widget:combo".toList] _ (by
    intro t ht
    simp at ht
    subst ht
    simp [IsPort, sourcePre, sinkPre])

/-- Every value with a colon on its first line makes the reader raise, so a block with a colon in its name cannot be the
source of a port -/
theorem colon_rejected (s : Bool) (p : Port) (v : Text) (hc : ':' ∈ v.takeWhile (· ≠ '\n')) (pre post : List Text)
    (hpre : ∀ t ∈ pre, ¬ IsPort t) : portTagDetails (pre ++ written s p v :: post) = .valueError := by
  rw [details_skip hpre]
  obtain ⟨a, b, e, el, hb⟩ := lastColon_some hc
  have h2 : lastColon (p.value ++ ':' :: v.takeWhile (· ≠ '\n')) = some (p.value ++ ':' :: a, b) := by
    rw [el]
    have := lastColon_append (p.value ++ ':' :: a) b hb
    simpa using this
  simp only [portTagDetails, match_written, h2, Option.map_some]
  cases ho : Port.ofValue (p.value ++ ':' :: a) with
  | none => rfl
  | some q =>
    have := ofValue_some ho
    exact absurd (show ':' ∈ q.value by rw [← this]; simp) (value_clean q).1

example : portTagDetails [sourcePortTag .block "PANDA:SEQ1".toList] = .valueError :=
  colon_rejected true .block _ (by decide) [] [] (by simp)

/-- A value is cut at its first line end -/
theorem line_end_cuts (s : Bool) (p : Port) (v w : Text) (hc : ':' ∉ v) (hn : '\n' ∉ v) (pre post : List Text)
    (hpre : ∀ t ∈ pre, ¬ IsPort t) : portTagDetails (pre ++ written s p (v ++ '\n' :: w) :: post) = .found s p v := by
  rw [details_skip hpre]
  have ht : (v ++ '\n' :: w).takeWhile (· ≠ '\n') = v := by
    rw [takeWhile_all hn]; simp
  simp only [portTagDetails, match_written, ht, lastColon_append _ _ hc, Option.map_some, ofValue_value]

/-- Replacing the source port tag: the other tags are there as before, in their order, and there is one source port tag -/
theorem with_source (p : Port) (tags : List Text) (v : Text) :
    (withSourcePortTag p tags v).filter (fun t => !sourcePre.isPrefixOf t)
      = tags.filter (fun t => !sourcePre.isPrefixOf t) ∧
    (withSourcePortTag p tags v).filter (sourcePre.isPrefixOf ·) = [written true p v] := by
  have h : sourcePre.isPrefixOf (sourcePortTag p v) = true := by
    rw [List.isPrefixOf_iff_prefix, sourcePortTag, List.append_assoc]; exact List.prefix_append ..
  constructor
  · simp only [withSourcePortTag, List.filter_append, List.filter_filter, Bool.and_self]
    rw [List.filter_cons, h]
    simp
  · simp only [withSourcePortTag, List.filter_append, List.filter_filter, List.filter_cons, h, written]
    simp

/-- … and it is what is read, if there is no sink port tag -/
theorem with_source_read (p : Port) (tags : List Text) (v : Text) (hc : ':' ∉ v) (hn : '\n' ∉ v)
    (hsink : ∀ t ∈ tags, ¬ sinkPre <+: t) : portTagDetails (withSourcePortTag p tags v) = .found true p v := by
  refine port_read_back_partial true p v hc hn _ [] ?_
  intro t ht
  rw [List.mem_filter] at ht
  rintro (h | h)
  · have := ht.2
    rw [List.isPrefixOf_iff_prefix.2 h] at this
    simp at this
  · exact hsink t ht.1 h

/-- With a sink port tag in the list that is read instead of the new tag -/
theorem sink_hides_source :
    portTagDetails (withSourcePortTag .bool [sinkPortTag .int32 "ZERO".toList] "A".toList) = .found false .int32 "ZERO".toList := by
  decide +kernel

/-! ### config tags -/

theorem readInt_digits (n : Nat) : readInt (Nat.toDigits 10 n) = some n := by
  have hd : (Nat.toDigits 10 n).all Char.isDigit = true :=
    List.all_eq_true.2 fun c hc => Nat.isDigit_of_mem_toDigits (by decide) (by decide) hc
  have hne : Nat.toDigits 10 n ≠ [] := Nat.toDigits_ne_nil
  unfold readInt
  split
  · rename_i ds e
    have := Nat.isDigit_of_mem_toDigits (b := 10) (by decide) (by decide) (show '-' ∈ Nat.toDigits 10 n by rw [e]; simp)
    simp at this
  · rw [if_pos ⟨hne, hd⟩, Nat.ofDigitChars_ten_toDigits]
    rfl

theorem readInt_show (n : Int) : readInt (showInt n) = some n := by
  unfold showInt
  split
  · have hd : (Nat.toDigits 10 n.natAbs).all Char.isDigit = true :=
      List.all_eq_true.2 fun c hc => Nat.isDigit_of_mem_toDigits (by decide) (by decide) hc
    simp only [readInt]
    rw [if_pos ⟨Nat.toDigits_ne_nil, hd⟩, Nat.ofDigitChars_ten_toDigits]
    show some (-(n.natAbs : Int)) = some n
    congr 1
    omega
  · rw [readInt_digits]
    show some ((n.natAbs : Nat) : Int) = some n
    congr 1
    omega

/-- The text of a number that is not negative has no sign. -/
theorem show_nat (n : Nat) : showInt n = Nat.toDigits 10 n := by
  unfold showInt
  rw [if_neg (by omega)]
  rfl

theorem no_colon (n : Int) : ':' ∉ showInt n := by
  intro h
  have hd : ∀ k : Nat, ':' ∉ Nat.toDigits 10 k := by
    intro k hk
    have := Nat.isDigit_of_mem_toDigits (b := 10) (by decide) (by decide) hk
    simp at this
  unfold showInt at h
  split at h
  · rcases List.mem_cons.1 h with h | h
    · simp at h
    · exact hd _ h
  · exact hd _ h

theorem takeWhile_colon {l : Text} (h : ':' ∉ l) : l.takeWhile (· ≠ ':') = l := by
  induction l with
  | nil => rfl
  | cons c l ih =>
    simp only [List.mem_cons, not_or] at h
    rw [List.takeWhile_cons_of_pos (by simpa using Ne.symm h.1), ih h.2]

/-- C26: the iteration that is written in a config tag is read back -/
theorem iteration_read_back (n : Int) : iterationOf (configTag n) = some n := by
  have h : (configTag n).dropWhile (· ≠ ':') = ':' :: showInt n := by
    simp [configTag, configPre, List.dropWhile]
  simp only [iterationOf, h, takeWhile_colon (no_colon n), readInt_show]

theorem config_prefix (n : Int) : configPre.isPrefixOf (configTag n) = true := by
  rw [List.isPrefixOf_iff_prefix, configTag]; exact List.prefix_append ..

/-- C26: a config tag that was added to tags without one is found -/
theorem config_found (n : Int) (pre post : List Text) (hpre : ∀ t ∈ pre, ¬ configPre <+: t) :
    getConfigTag (pre ++ configTag n :: post) = some (configTag n) := by
  have h1 : pre.find? (fun t => configPre.isPrefixOf t) = none := by
    rw [List.find?_eq_none]
    intro t ht hp
    exact hpre t ht (List.isPrefixOf_iff_prefix.1 hp)
  rw [getConfigTag, List.find?_append, h1, Option.none_or, List.find?_cons_of_pos (config_prefix n)]

/-- C26: removing the config tags leaves none, and the others as they were, in their order -/
theorem without_config (tags : List Text) :
    getConfigTag (withoutConfigTags tags) = none ∧ (withoutConfigTags tags).Sublist tags ∧
    ∀ t, ¬ configPre <+: t → (withoutConfigTags tags).count t = tags.count t := by
  refine ⟨?_, List.filter_sublist, ?_⟩
  · rw [getConfigTag, List.find?_eq_none]
    intro t ht
    have := (List.mem_filter.1 ht).2
    simpa only [Bool.not_eq_true', Bool.not_eq_true] using this
  · intro t ht
    rw [withoutConfigTags, List.count_filter]
    simpa only [Bool.not_eq_true', ← Bool.not_eq_true, List.isPrefixOf_iff_prefix] using ht

/-- C26: replacing the config tag: then there is one, and its iteration is the given one -/
theorem config_replaced (tags : List Text) (n : Int) :
    (withoutConfigTags tags ++ [configTag n]).filter (configPre.isPrefixOf ·) = [configTag n] ∧
    getConfigTag (withoutConfigTags tags ++ [configTag n]) = some (configTag n) := by
  constructor
  · have h1 : (withoutConfigTags tags).filter (configPre.isPrefixOf ·) = [] := by
      rw [List.filter_eq_nil_iff]
      intro t ht
      have := (List.mem_filter.1 ht).2
      simpa only [Bool.not_eq_true', Bool.not_eq_true] using this
    rw [List.filter_append, h1, List.filter_cons, config_prefix]
    rfl
  · refine config_found n _ [] ?_
    intro t ht hp
    have := (List.mem_filter.1 ht).2
    rw [List.isPrefixOf_iff_prefix.2 hp] at this
    simp at this

/-! ### what parts put on their attributes -/

theorem no_prefix {a b t : Text} (x y : Char) (h : a = x :: b) (ht : ∃ r, t = y :: r) (hxy : x ≠ y) : ¬ a <+: t := by
  rintro ⟨s, hs⟩
  obtain ⟨r, rfl⟩ := ht
  rw [h] at hs
  simp at hs
  exact hxy hs.1

/-- The tags in front of the port tag: what widget and group are called does not matter -/
theorem setTags_front {writeable : Bool} {config : Int} {group : Text} {widget : Option Text} {t : Text}
    (ht : t ∈ (widget.map widgetTag).toList ++
      (if config ≠ 0 ∧ writeable then [configTag config] else []) ++ (if group ≠ [] then [groupTag group] else [])) :
    ¬ IsPort t := by
  have key : ∃ y r, t = y :: r ∧ y ≠ 's' := by
    rcases List.mem_append.1 ht with ht | ht
    · rcases List.mem_append.1 ht with ht | ht
      · obtain ⟨w, hw, e⟩ := Option.map_eq_some_iff.1 (Option.mem_toList.1 ht)
        exact ⟨'w', _, e.symm, by decide⟩
      · split at ht
        · simp only [List.mem_singleton] at ht; exact ⟨'c', _, ht, by decide⟩
        · simp at ht
    · split at ht
      · simp only [List.mem_singleton] at ht; exact ⟨'g', _, ht, by decide⟩
      · simp at ht
  obtain ⟨y, r, e, hy⟩ := key
  rintro (h | h)
  · exact no_prefix 's' y rfl ⟨r, e⟩ (Ne.symm hy) h
  · exact no_prefix 's' y rfl ⟨r, e⟩ (Ne.symm hy) h

/-- C26: the sink port that was asked for is read back from the tags of the attribute, and no other -/
theorem setTags_port (writeable : Bool) (config : Int) (group : Text) (widget : Option Text) (sinkPort : Option Port)
    (badge : Option Text) :
    portTagDetails (setTags writeable config group widget sinkPort badge) =
      match sinkPort with | some p => .found false p [] | none => .nothing := by
  unfold setTags
  cases sinkPort with
  | none =>
    have := details_skip (tags := []) (fun t ht => setTags_front (widget := widget) (config := config) (writeable := writeable) (group := group) (t := t) ht)
    simpa [portTagDetails, sinkTags] using this
  | some p =>
    exact port_read_back_partial false p [] (by simp) (by simp) _ _ fun t ht => setTags_front ht

/-- C26: an attribute is saved in the iteration asked for if it is writeable and one was asked for -/
theorem setTags_config (writeable : Bool) (config : Int) (group : Text) (widget : Option Text) (sinkPort : Option Port)
    (badge : Option (Text × Text × Text)) :
    (getConfigTag (setTags writeable config group widget sinkPort (badge.map fun b => badgeValueTag b.1 b.2.1 b.2.2))).bind iterationOf =
      if config ≠ 0 ∧ writeable then some config else none := by
  have hw : ∀ t ∈ (widget.map widgetTag).toList, ¬ configPre <+: t := by
    intro t ht
    obtain ⟨w, hw, e⟩ := Option.map_eq_some_iff.1 (Option.mem_toList.1 ht)
    exact no_prefix 'c' 'w' rfl ⟨_, e.symm⟩ (by decide)
  unfold setTags
  by_cases hc : config ≠ 0 ∧ writeable
  · rw [if_pos hc, if_pos hc]
    have := config_found config (widget.map widgetTag).toList ((if group ≠ [] then [groupTag group] else []) ++
      sinkTags (badge.map fun b => badgeValueTag b.1 b.2.1 b.2.2) sinkPort) hw
    simp only [List.append_assoc, List.cons_append, List.nil_append] at this ⊢
    rw [this, Option.bind_some, iteration_read_back]
  · rw [if_neg hc, if_neg hc]
    have : getConfigTag ((widget.map widgetTag).toList ++ [] ++
        (if group ≠ [] then [groupTag group] else []) ++
        sinkTags (badge.map fun b => badgeValueTag b.1 b.2.1 b.2.2) sinkPort) = none := by
      rw [getConfigTag, List.find?_eq_none]
      intro t ht hp
      have hp := List.isPrefixOf_iff_prefix.1 hp
      rcases List.mem_append.1 ht with ht | ht
      · rcases List.mem_append.1 ht with ht | ht
        · rw [List.append_nil] at ht; exact hw t ht hp
        · split at ht
          · simp only [List.mem_singleton] at ht
            exact no_prefix 'c' 'g' rfl ⟨_, ht⟩ (by decide) hp
          · simp at ht
      · unfold sinkTags at ht
        split at ht
        · rcases List.mem_cons.1 ht with ht | ht
          · exact no_prefix 'c' 's' rfl ⟨_, ht⟩ (by decide) hp
          · cases badge with
            | none => simp at ht
            | some b =>
              simp only [Option.map_some, Option.toList_some, List.mem_singleton] at ht
              exact no_prefix 'c' 'b' rfl ⟨_, ht⟩ (by decide) hp
        · simp at ht
    rw [this]; rfl

example : setTags true 2 "outputs".toList (some "combo".toList) (some .bool) none =
    ["widget:combo".toList, "config:2".toList, "group:outputs".toList, "sinkPort:bool:".toList] := by decide +kernel

end Verif.Props.Tags
