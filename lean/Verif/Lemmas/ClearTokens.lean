/-
Sources whose names are clear.
-/
import Verif.Props.Total
import Verif.Spec.ValueAccepts
import Verif.Lemmas.Heads

namespace Hdx
open Spec

namespace Spec

/-- The units of the source, that is the names that directly follow a number, have no capital letters and are none of four texts that are lexed wrongly (C13). -/
def PlainUnits (src : List Char) : Prop :=
  ∀ a num us rest, src = a ++ (num ++ (nameText us ++ rest)) → LongestNumber (num ++ (nameText us ++ rest)) num → IsName us rest →
    (∀ d ∈ nameText us, ¬ Upper d) ∧ (nameText us).map Char.toLower ∉ [c!"sv", c!"svm", c!"svma", c!"svmi"]

/-- There are no escapes, no NULs, and the units are plain. -/
structure PlainNames (src : List Char) : Prop where
  escapes : '\\' ∉ src
  nul : NUL ∉ src
  units : PlainUnits src

end Spec

theorem Spec.PlainUnits.suffix {a b : List Char} (h : PlainUnits (a ++ b)) : PlainUnits b := fun a' num us rest e hl hn =>
  h (a ++ a') num us rest (by rw [e, List.append_assoc]) hl hn
theorem Spec.PlainNames.suffix {a b : List Char} (h : PlainNames (a ++ b)) : PlainNames b :=
  ⟨fun hm => h.escapes (List.mem_append_right _ hm), fun hm => h.nul (List.mem_append_right _ hm), h.units.suffix⟩

/-- A condition that is enough: no capital letters, and no `sv`. -/
theorem plainNames_of {src : List Char} (h1 : ∀ d ∈ src, d ≠ '\\' ∧ d ≠ NUL ∧ ¬ Upper d) (h2 : ¬ c!"sv" <:+: src) : PlainNames src := by
  refine ⟨fun h => (h1 _ h).1 rfl, fun h => (h1 _ h).2.1 rfl, fun a num us rest e _ _ => ?_⟩
  have hm : ∀ d ∈ nameText us, ¬ Upper d := fun d hd => (h1 d (by rw [e]; simp [hd])).2.2
  have hlow : (nameText us).map Char.toLower = nameText us := by
    rw [← map_lower]
    refine (List.map_congr_left (g := id) fun c hc => ?_).trans (List.map_id _)
    have := hm c hc
    unfold Upper at this
    unfold toAsciiLower
    rw [if_neg]
    · rfl
    · simp only [Bool.and_eq_true, decide_eq_true_eq]
      intro h
      exact this h
  refine ⟨hm, fun hs => ?_⟩
  rw [hlow] at hs
  have hpre : c!"sv" <+: nameText us := by
    simp only [List.mem_cons, List.not_mem_nil, or_false] at hs
    rcases hs with h | h | h | h <;> rw [h] <;> decide
  obtain ⟨z, hz⟩ := hpre
  exact h2 ⟨a ++ num, z ++ rest, by rw [e, ← hz]; simp⟩

theorem nameText_noEsc {us : List NameUnit} (h : '\\' ∉ nameText us) : ∀ e, NameUnit.esc e ∉ us := fun e he => h (by
  simp only [nameText, List.mem_flatMap]
  exact ⟨_, he, by simp [NameUnit.text]⟩)
section
variable {l l' : Lexer} {x : List Char} {t : Token}

theorem percent_lower : ∀ d ∈ nameValue (chrs ['%']), ¬ Upper d := by
  intro d hd
  have : nameValue (chrs ['%']) = ['%'] := by decide
  rw [this] at hd
  cases List.mem_singleton.mp hd
  unfold Upper; decide

/-- A percentage: its name is `%`. -/
theorem percent_decodes {num r' : List Char} (hb : l.Before (num ++ '%' :: r')) (ht : Tame l.features l.source)
    (hlong : LongestNumber (num ++ '%' :: r') num) (ha : l.advance = .ok (t, l')) (hk : t.kind = .dimension) :
    Decodes (chrs ['%']) ⟨l.offset, t⟩ l.source ∧ t.dimensionUnit = .percent := by
  have htx : Tame l.features (num ++ '%' :: r') := by
    obtain ⟨pre, hp, _⟩ := hb
    rw [hp] at ht; exact ht.suffix
  have hsrc : byteLen l.source < 2 ^ 32 := ht.limits.total
  have hne : num ++ '%' :: r' ≠ [] := by simp
  have hpos : t.len.toNat ≠ 0 := by
    obtain ⟨t', l2, text, cs', a1, a2, a3, a4, a5, a6, a7⟩ := advance_tame hb htx hne
    rw [ha] at a1; cases a1
    have := utf8Len_pos a4
    rw [a5, byteLen_eq]; omega
  obtain ⟨r0, hsc, hcase⟩ := advance_cases hb hne ha
  have hst := hcase.kindStarts.numeric (.inr hk)
  rw [scan_startsNumber hst] at hsc
  replace hsc : consumeNumeric (num ++ '%' :: r') = (t, r0) := by injection hsc
  obtain ⟨s, i, f, e, r, hp, hcs, hlong', fl, sg, hfl, hsg, h1, h2, h3⟩ := consumeNumeric_spec ((isNumberStart_iff _).mpr hst)
  have hnl := (number_len hp).1
  generalize s ++ (i ++ (f ++ e)) = num' at *
  have hnum : num' = num := longestNumber_unique hlong' hlong
  subst hnum
  have hr : '%' :: r' = r := List.append_cancel_left hcs
  subst hr
  have hbt := htx.limits.total
  rw [byteLen_eq, utf8Len_append] at hbt
  have hw : (w32 num'.length).toNat = num'.length := w32_toNat (by omega)
  rw [h1 r' rfl] at hsc
  replace hsc := congrArg Prod.fst hsc; simp only at hsc
  have hd := htx.limits.dimension [] num' ('%' :: r') rfl hlong (by simp)
  obtain ⟨k1, k2, k3, k4⟩ := C17_dimension_known fl sg (w32 num'.length) 1#32 (F32.parse num') .percent (by decide) (by rw [hw]; exact hd)
  rw [hsc] at k1 k2 k3 k4
  obtain ⟨a1, a2⟩ := affixes_dimension k1
  have hin : Inner ⟨l.offset, t⟩ l.source (nameText (chrs ['%'])) ([] ++ r') :=
    inner_of_before (lead := num') (by simpa using hb) hsrc (by rw [a1, k3, hw, byteLen_eq, hnl]) (by rw [a2]; rfl)
      (by rw [k2, BitVec.toNat_add, hw, byteLen_eq, hnl]; simp [DimensionUnit.len, byteLen_eq]; rw [show '%'.utf8Size = 1 from rfl]; omega) hpos
  have hdd : NameDecodes (chrs ['%']) ([] ++ r') := ⟨by decide, trivial⟩
  refine ⟨⟨inner_parseStr hin (by simp [k1]) hdd (fun _ => by decide), fun _ => inner_parseStrLower hin (by simp [k1]) hdd (fun _ => by decide) (fun _ => percent_lower),
    fun _ k hkl => inner_eq hin (by simp [k1]) hdd (fun _ => by decide) (fun _ _ => percent_lower) (fun _ => ⟨percent_lower, by intro e he; simp [chrs] at he⟩) hkl,
    name_total hin (by simp [k1]) hdd⟩, ?_⟩
  simp [k4]

theorem clear_of_advance (hb : l.Before x) (ht : Tame l.features l.source) (hp : PlainNames l.source) (ha : l.advance = .ok (t, l')) : Clear l.source ⟨l.offset, t⟩ := by
  have hxs : Tame l.features x ∧ PlainNames x := by
    obtain ⟨pre, hp1, _⟩ := hb
    rw [hp1] at ht hp; exact ⟨ht.suffix, hp.suffix⟩
  obtain ⟨htx, hpx⟩ := hxs
  have hsrc : byteLen l.source < 2 ^ 32 := ht.limits.total
  intro hk
  have hk : t.kind = .ident ∨ t.kind = .function ∨ t.kind = .dimension := by
    rcases hk with h | h | h
    · exact .inl ((isKind_iff (by decide)).mp h)
    · exact .inr (.inl ((isKind_iff (by decide)).mp h))
    · exact .inr (.inr ((isKind_iff (by decide)).mp h))
  have hne : x ≠ [] := by
    rintro rfl
    rw [advance_before hb, if_pos rfl] at ha
    cases ha; exact absurd hk (by decide)
  -- what a name that is decoded gives
  have build : ∀ {us : List NameUnit}, Decodes us ⟨l.offset, t⟩ l.source → '\\' ∉ nameText us → NUL ∉ nameText us →
      (t.kind = .dimension → ∀ d ∈ nameText us, ¬ Upper d) →
      (t.kind = .dimension → ∀ u, unitName t.dimensionUnit = some u → (nameText us).map asciiLower = u) →
      (t.kind = .ident → t.isDashedIdent = true → ['-', '-'] <+: (nameText us).map asciiLower) →
      ∃ s, Named l.source ⟨l.offset, t⟩ s ∧ (∀ k, (∀ d ∈ k, ¬ Upper d) → Cursor.eqIgnoreAsciiCase ⟨l.offset, t⟩ l.source k = .ok (decide (s = k))) ∧
        (IsKind .dimension ⟨l.offset, t⟩ → ∀ u, unitName t.dimensionUnit = some u → s = u) ∧
        (IsKind .ident ⟨l.offset, t⟩ → t.isDashedIdent = true → ['-', '-'] <+: s) := by
    intro us hd h1 h2 h3 h4 h5
    have hv := (nameValue_plain h1 h2).symm
    have he := nameText_noEsc h1
    refine ⟨(nameText us).map asciiLower, ?_, fun k hkl => ?_, fun hk => h4 ((isKind_iff (by decide)).mp hk), fun hk => h5 ((isKind_iff (by decide)).mp hk)⟩
    · rw [Named, hd.lower fun _ e hm => absurd hm (he e), hv]
    · rw [hd.eq _ k hkl, hv]
      rintro (h | h | h)
      · exact absurd h h1
      · exact absurd h h2
      · rw [hv]
        exact ⟨h3 h, fun e hm => absurd hm (he e)⟩
  have hname : t.kind = .ident ∨ t.kind = .function → StartsName x ∧ ¬ ['-', '-', '>'] <+: x := fun hk => by
    rcases (C10_only hb hne ha).1 hk with h | ⟨c, r, e, hc⟩
    · exact h
    · rw [e, hc] at hpx
      exact absurd (List.mem_cons_self) hpx.nul
  have dashes : ∀ {us : List NameUnit}, ['-', '-'] <+: nameText us → ['-', '-'] <+: (nameText us).map asciiLower := by
    rintro us ⟨z, hz⟩
    rw [← hz, List.map_append]
    exact ⟨_, rfl⟩
  have hnot : ∀ {us : List NameUnit} {rest : List Char}, x = nameText us ++ rest → '\\' ∉ nameText us ∧ NUL ∉ nameText us := fun e =>
    ⟨fun h => hpx.escapes (by rw [e]; exact List.mem_append_left _ h), fun h => hpx.nul (by rw [e]; exact List.mem_append_left _ h)⟩
  by_cases hid : t.kind = .ident ∨ t.kind = .function
  · obtain ⟨hs, hc⟩ := hname hid
    obtain ⟨us, rest, rfl, hn⟩ := C10_total x
    obtain ⟨n1, n2⟩ := hnot rfl
    by_cases hpar : Starts (· = '(') rest
    · obtain ⟨c, rest, rfl, rfl⟩ := hpar
      obtain ⟨t', ⟨_, y, _⟩, hcase⟩ := C22_function_partial hb hs hn htx.escapes hsrc
      rw [ha] at y; cases y
      rcases hcase with h | h | ⟨h, hd⟩
      · rw [h] at hid; exact absurd hid (by decide)
      · rw [h] at hid; exact absurd hid (by decide)
      · exact build hd n1 n2 (fun h' => by rw [h] at h'; cases h') (fun h' => by rw [h] at h'; cases h') (fun h' => by rw [h] at h'; cases h')
    · obtain ⟨t', ⟨_, y, _⟩, h, hd⟩ := C22_ident_partial hb hs hc hn hpar htx.escapes hsrc
      rw [ha] at y; cases y
      obtain ⟨t2, ⟨_, y, _⟩, _, _, _, hdash⟩ := C10_ident_partial hb hs hc hn hpar htx.escapes (by
        have := htx.limits.total
        rw [byteLen_eq, utf8Len_append] at this
        rw [byteLen_eq]; omega)
      rw [ha] at y; cases y
      exact build hd n1 n2 (fun h' => by rw [h] at h'; cases h') (fun h' => by rw [h] at h'; cases h') (fun _ hda => dashes ((hdash n2).mp hda))
  · have hdim : t.kind = .dimension := by 
      rcases hk with h | h | h
      · exact absurd (.inl h) hid
      · exact absurd (.inr h) hid
      · exact h
    obtain ⟨num, rest, rfl, hlong⟩ := C12_total (C12_only hb hne ha (.inr hdim))
    obtain ⟨t', ⟨_, y, _⟩, _, hiff, _⟩ := C12_partial hb hlong htx.escapes htx.limits
    rw [ha] at y; cases y
    rcases hiff.mp hdim with ⟨c, r, rfl, rfl⟩ | hs
    · obtain ⟨hd, hu⟩ := percent_decodes hb ht hlong ha hdim
      refine build hd (by decide) (by decide) (fun _ => percent_lower) (fun _ u hu' => ?_) (fun h' => by rw [hdim] at h'; cases h')
      rw [hu] at hu'
      cases hu'
      decide
    · obtain ⟨us, rest, rfl, hn⟩ := C10_total rest
      obtain ⟨hup, hsv⟩ := hpx.units [] num us rest rfl hlong hn
      obtain ⟨t', ⟨_, y, _⟩, _, hd⟩ := C22_dimension_partial hb hlong hs hn htx.escapes htx.limits hsv hsrc
      rw [ha] at y; cases y
      obtain ⟨t', ⟨_, y, _⟩, _, _, hunit, _⟩ := C13_partial hb hlong hs hn htx.escapes htx.limits hsv
      rw [ha] at y; cases y
      have n1 : '\\' ∉ nameText us := fun h => hpx.escapes (by simp [h])
      have n2 : NUL ∉ nameText us := fun h => hpx.nul (by simp [h])
      refine build hd n1 n2 (fun _ => hup) (fun _ u hu => ?_) (fun h' => by rw [hdim] at h'; cases h')
      have := hunit _ (fun e => by rw [e] at hu; cases hu) rfl
      rw [hu] at this
      cases this
      rw [← map_lower]
      refine List.map_congr_left fun c _ => ?_
      exact (asciiLower_eq _).symm

end

theorem clear_of_stream {l : Lexer} {cs : List Cursor} (h : Stream l cs) {x : List Char} (hb : l.Before x) (ht : Tame l.features l.source)
    (hp : PlainNames l.source) : ∀ c ∈ cs, Clear l.source c := by
  induction h generalizing x with
  | nil => simp
  | @cons l l' t cs ha hk hz h ih =>
    obtain ⟨pre, hp1, hp2⟩ := hb
    have hb : l.Before x := ⟨pre, hp1, hp2⟩
    have hne : x ≠ [] := by
      rintro rfl
      rw [advance_before hb, if_pos rfl] at ha
      cases ha; cases hk
    have htx : Tame l.features x := by rw [hp1] at ht; exact ht.suffix
    obtain ⟨t', l2, text, cs', a1, a2, a3, a4, a5, a6, a7⟩ := advance_tame hb htx hne
    rw [ha] at a1; cases a1
    have hs : l'.source = l.source := (advance_keeps ha).1
    have hf : l'.features = l.features := by rw [a6]
    intro c hc
    rcases List.mem_cons.mp hc with rfl | hc
    · exact clear_of_advance hb ht hp ha
    · have := ih a7 (by rw [hs, hf]; exact ht) (by rw [hs]; exact hp) c hc
      rw [hs] at this; exact this

end Hdx
