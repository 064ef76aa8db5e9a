/-
The types of values that are written by hand and take all that they should.
-/
import Verif.Lemmas.CompleteParser

namespace Hdx
open Spec Prog

section
variable {src : List Char} {M : Meaning}

/-! ### Single tokens -/

/-- The values of the definition are single tokens, of these kinds. -/
def One (src : List Char) (M : Meaning) (d : Def) (acc : List Head) : Prop := ∀ ⦃w⦄, Matches src M d w → Decent src w → ∃ c, w = [c] ∧ Among src acc c

/-- The definition is a choice of these keywords. -/
def chooses (names : List (List Char)) : Def → Bool
  | .comb ds .alternatives => ds.all fun | .ident n => plainName (n.map asciiLower) && names.contains (n.map asciiLower) | _ => false
  | _ => false

theorem One.words {names : List (List Char)} {d : Def} (h : chooses names d = true) : One src M d (names.map .word) := by
  intro w hw hd
  unfold chooses at h
  split at h
  · next ds =>
    cases hw with
    | one hm hw =>
      have := List.all_eq_true.mp h _ hm
      split at this
      · next n =>
        rw [Bool.and_eq_true, List.contains_iff_mem] at this
        obtain ⟨c, rfl, hk, hcall⟩ := ident_inv hw
        exact ⟨c, rfl, Among.words.mpr ⟨hk, _, this.2, hcall.named (hd.clear c (.head _)) (.inl hk) (plainName_spec this.1)⟩⟩
      · cases this
  · cases h
theorem One.ident {n : List Char} (h : plainName (n.map asciiLower) = true) : One src M (.ident n) [.word (n.map asciiLower)] := by
  intro w hw hd
  obtain ⟨c, rfl, hk, hcall⟩ := ident_inv hw
  exact ⟨c, rfl, Among.one.mpr ⟨hk, hcall.named (hd.clear c (.head _)) (.inl hk) (plainName_spec h)⟩⟩
theorem One.comma : One src M (.punct ',') [.kind .comma] := by
  intro w hw _
  cases hw with
  | punct h =>
    rcases h with h | h
    · exact absurd rfl h.1
    · exact ⟨_, rfl, Among.one.mpr h.2⟩
theorem One.delim {ch : Char} (hch : ch ≠ ',') : One src M (.punct ch) [.delim ch] := by
  intro w hw _
  cases hw with
  | punct h =>
    rcases h with h | h
    · exact ⟨_, rfl, Among.one.mpr h.2⟩
    · exact absurd h.1 hch
theorem One.alts {ds : List Def} {acc : List Head} (h : ∀ d ∈ ds, One src M d acc) : One src M (Spec.alts ds) acc := by
  intro w hw hd
  cases hw with
  | one hm hw => exact h _ hm hw hd
theorem One.mono {d : Def} {a b : List Head} (h : One src M d a) (hab : ∀ x ∈ a, x ∈ b) : One src M d b := fun w hw hd => by
  obtain ⟨c, h1, x, hx, hh⟩ := h hw hd
  exact ⟨c, h1, x, hab x hx, hh⟩
theorem One.number {r : DefRange} : One src M (.type (.number r)) [.kind .number] := fun w hw _ => by
  obtain ⟨c, rfl, h, _⟩ := type_inv hw
  exact ⟨c, rfl, Among.one.mpr h⟩
theorem One.percentage {r : DefRange} : One src M (.type (.percentage r)) [.unit c!"%"] := fun w hw hd => by
  obtain ⟨c, rfl, h, _⟩ := type_inv hw
  exact ⟨c, rfl, Among.one.mpr (h.has (hd.clear c (.head _)) (plainName_spec (by decide)))⟩
theorem One.angle : One src M (.type (.angle .none)) ([c!"grad", c!"rad", c!"turn", c!"deg"].map .unit) := fun w hw hd => noRange (angle_lang (type_inv hw) hd)
theorem One.lengthPercentage : One src M (.type (.lengthPercentage .none)) (.zero :: .unit c!"%" :: lengthUnits.map .unit) := fun w hw hd =>
  noRange (lengthPercentage_lang (type_inv hw) hd)

/-- The tokens of a channel. -/
def channelHeads : List Head := [.kind .number] ++ ([.unit c!"%"] ++ [.word c!"none"])
/-- The tokens of a hue. -/
def hueHeads : List Head := [.kind .number] ++ ([c!"grad", c!"rad", c!"turn", c!"deg"].map .unit ++ [.word c!"none"])
theorem Exactly.channel : Exactly src isChannel channelHeads := .either .kind (.either .percent (.word (plainName_spec (by decide))))
theorem Exactly.hue : Exactly src isHue hueHeads := .either .kind (.either .angle (.word (plainName_spec (by decide))))
theorem One.channel : One src M Spec.channel channelHeads := .alts fun d hd => by
  simp only [List.mem_cons, List.not_mem_nil, or_false] at hd
  rcases hd with rfl | rfl | rfl
  · exact One.number.mono (by decide)
  · exact One.percentage.mono (by decide)
  · exact (One.ident (by decide)).mono (by decide)
theorem One.hue : One src M Spec.hue hueHeads := .alts fun d hd => by
  simp only [List.mem_cons, List.not_mem_nil, or_false] at hd
  rcases hd with rfl | rfl | rfl
  · exact One.number.mono (by decide)
  · exact One.angle.mono (by decide)
  · exact (One.ident (by decide)).mono (by decide)

/-! ### Sequences of single tokens -/

/-- A token that is needed, or may be missing. -/
structure Slot where
  opt : Bool
  acc : List Head
  prog : Prog Val

/-- The program takes the token, or leaves it. -/
structure Slot.Ok (src : List Char) (s : Slot) : Prop where
  take : ∀ ⦃c rest⦄, Clear src c → Among src s.acc c → Yields src (c :: rest) s.prog rest fun v => v.cursors = [c]
  skip : s.opt = true → ∀ ⦃c rest⦄, Clear src c → ¬ Among src s.acc c → Yields src (c :: rest) s.prog (c :: rest) fun v => v.cursors = []

theorem piece_ok {test : Cursor → Prog Bool} {acc : List Head} (h : Exactly src test acc) : Slot.Ok src ⟨false, acc, piece test⟩ :=
  ⟨fun c rest hc ha => by
    refine Yields.bind (Yields.tok (P' := fun x => x = c) (h.yes hc ha) rfl) fun x hx => ?_
    subst hx
    exact Yields.pure rfl, nofun⟩
theorem optPiece_takes {test : Cursor → Prog Bool} {acc : List Head} (h : Exactly src test acc) {c : Cursor} {rest : List Cursor} (hc : Clear src c) (ha : Among src acc c) :
    Yields src (c :: rest) (optPiece test) rest fun v => v.cursors = [c] := by
  refine Yields.bind (Yields.ifPeek_some (h.yes hc ha) (Yields.tok (P' := fun x => x = c) (h.yes hc ha) rfl)) fun o ⟨x, ho, hx⟩ => ?_
  subst ho hx
  exact Yields.pure rfl
theorem optPiece_ok {test : Cursor → Prog Bool} {acc : List Head} (h : Exactly src test acc) : Slot.Ok src ⟨true, acc, optPiece test⟩ :=
  ⟨fun c rest hc ha => optPiece_takes h hc ha, fun _ c rest hc ha => by
    refine Yields.bind (Yields.ifPeek_none (h.no hc ha)) fun o ho => ?_
    subst ho
    exact Yields.pure rfl⟩
/-- The closing parenthesis. -/
def closeSlot : Slot := ⟨false, [.kind .rightParen], optPiece (isKind .rightParen)⟩
theorem closeSlot_ok : Slot.Ok src closeSlot := ⟨fun _ _ hc ha => optPiece_takes .kind hc ha, nofun⟩

/-- The tokens fill the slots. -/
inductive Fills (src : List Char) : List Slot → List Cursor → Prop
  | nil : Fills src [] []
  | take : Among src s.acc c → Fills src ss w → Fills src (s :: ss) (c :: w)
  | skip : s.opt = true → Fills src ss w → Fills src (s :: ss) w

/-- What the first token may be. -/
def slotFirsts : List Slot → List Head
  | [] => []
  | s :: ss => s.acc ++ if s.opt then slotFirsts ss else []

/-- One token decides whether a slot is filled. -/
def slotsOk : List Slot → Bool
  | [] => true
  | s :: ss => (!s.opt || apartAll s.acc (slotFirsts ss)) && slotsOk ss

theorem Fills.first {last : Slot} (hl : last.opt = false) : ∀ {ss : List Slot} {w : List Cursor}, Fills src (ss ++ [last]) w → ∃ c w', w = c :: w' ∧ Among src (slotFirsts (ss ++ [last])) c
  | [], w, h => by
    cases h with
    | take ha _ => exact ⟨_, _, rfl, by rw [List.nil_append, slotFirsts, Among.append]; exact .inl ha⟩
    | skip h _ => rw [hl] at h; cases h
  | s :: ss, w, h => by
    cases h with
    | take ha _ => exact ⟨_, _, rfl, by rw [List.cons_append, slotFirsts, Among.append]; exact .inl ha⟩
    | skip h hf =>
      obtain ⟨c, w', e, ha⟩ := Fills.first hl hf
      refine ⟨c, w', e, ?_⟩
      rw [List.cons_append, slotFirsts, if_pos h, Among.append]
      exact .inr ha

theorem slots_yield {last : Slot} (hl : last.opt = false) {after : List Cursor} : ∀ {ss : List Slot} {w : List Cursor}, Fills src (ss ++ [last]) w →
    slotsOk (ss ++ [last]) = true → (∀ s ∈ ss ++ [last], s.Ok src) → (∀ c ∈ w, Clear src c) →
      Yields src (w ++ after) (sequence ((ss ++ [last]).map (·.prog))) after fun vs => Val.cursorsOf vs = w
  | [], w, h, _, hs, hw => by
    cases h with
    | take ha h =>
      cases h
      simp only [List.nil_append, List.map_cons, List.map_nil, sequence]
      exact Yields.bind ((hs last (by simp)).take (hw _ (.head _)) ha) fun v hv => Yields.bind (P := fun vs => vs = []) (Yields.pure rfl) fun vs hvs =>
        Yields.pure (by simp [hvs, Val.cursorsOf, hv])
    | skip h _ => rw [hl] at h; cases h
  | s :: ss, w, h, ho, hs, hw => by
    rw [List.cons_append, slotsOk, Bool.and_eq_true] at ho
    simp only [List.cons_append, List.map_cons, sequence]
    cases h with
    | take ha h =>
      refine Yields.bind ((hs s (by simp)).take (hw _ (.head _)) ha) fun v hv => ?_
      refine Yields.bind (slots_yield hl h ho.2 (fun s hs' => hs s (.tail _ hs')) fun c hc => hw c (.tail _ hc)) fun vs hvs => Yields.pure ?_
      simp [Val.cursorsOf, hv, hvs]
    | skip h hf =>
      obtain ⟨c, w', rfl, ha⟩ := hf.first hl
      have hc := hw c (.head _)
      have hap := ho.1
      rw [h] at hap
      refine Yields.bind ((hs s (by simp)).skip h hc fun h' => apartAll_spec hc (by simpa using hap) h' ha) fun v hv => ?_
      refine Yields.bind (slots_yield hl hf ho.2 (fun s hs' => hs s (.tail _ hs')) hw) fun vs hvs => Yields.pure ?_
      simp [Val.cursorsOf, hv, hvs]

/-- The parts of a definition are those of the slots. -/
inductive SlotsFor (src : List Char) (M : Meaning) : List Def → List Slot → Prop
  | nil : SlotsFor src M [] []
  | need : One src M d s.acc → SlotsFor src M ds ss → SlotsFor src M (d :: ds) (s :: ss)
  | may : s.opt = true → One src M d s.acc → SlotsFor src M ds ss → SlotsFor src M (.optional d :: ds) (s :: ss)

theorem SlotsFor.fills {ds : List Def} {ss : List Slot} (h : SlotsFor src M ds ss) {w : List Cursor} (hw : MatchesSeq src M ds w) (hd : Decent src w) {k : Cursor} {last : Slot}
    (hk : Among src last.acc k) : Fills src (ss ++ [last]) (w ++ [k]) := by
  induction h generalizing w with
  | nil => cases hw; exact .take hk .nil
  | need h1 _ ih =>
    cases hw with
    | cons hw1 hw2 =>
      obtain ⟨c, rfl, ha⟩ := h1 hw1 hd.left
      exact .take ha (ih hw2 hd.right)
  | may ho h1 _ ih =>
    cases hw with
    | cons hw1 hw2 =>
      cases hw1 with
      | absent => exact .skip ho (ih hw2 hd.right)
      | present hw1 =>
        obtain ⟨c, rfl, ha⟩ := h1 hw1 hd.left
        exact .take ha (ih hw2 hd.right)

theorem Fills.closings {ss : List Slot} {w : List Cursor} (h : Fills src ss w) (hc : ∀ c ∈ w, Clear src c) (ha : ∀ s ∈ ss, apartAll s.acc [.kind .rightParen] = true) :
    closings w = 0 := by
  induction h with
  | nil => rfl
  | take h _ ih =>
    rw [(count_cons _ _).1, closings_one (hc _ (.head _)) h (ha _ (.head _)), ih (fun c h => hc c (.tail _ h)) fun s h => ha s (.tail _ h)]
  | skip _ _ ih => exact ih hc fun s h => ha s (.tail _ h)
theorem SlotsFor.fill {ds : List Def} {ss : List Slot} (h : SlotsFor src M ds ss) {w : List Cursor} (hw : MatchesSeq src M ds w) (hd : Decent src w) : Fills src ss w := by
  induction h generalizing w with
  | nil => cases hw; exact .nil
  | need h1 _ ih =>
    cases hw with
    | cons hw1 hw2 =>
      obtain ⟨c, rfl, ha⟩ := h1 hw1 hd.left
      exact .take ha (ih hw2 hd.right)
  | may ho h1 _ ih =>
    cases hw with
    | cons hw1 hw2 =>
      cases hw1 with
      | absent => exact .skip ho (ih hw2 hd.right)
      | present hw1 =>
        obtain ⟨c, rfl, ha⟩ := h1 hw1 hd.left
        exact .take ha (ih hw2 hd.right)

/-! ### Colors -/

/-- What is known of a color function. -/
structure ColorFn (src : List Char) (M : Meaning) (n : List Char) (d : Def) (ss : List Slot) : Prop where
  mem : n ∈ COLOR_FUNCTIONS
  lower : n.map asciiLower = n
  plain : plainName n = true
  args : colorArguments n = ss.map (·.prog)
  parts : ∀ w, Matches src M d w → Decent src w → ∃ ds, MatchesSeq src M ds w ∧ SlotsFor src M ds ss
  ok : slotsOk (ss ++ [closeSlot]) = true
  each : ∀ s ∈ ss, s.Ok src
  noClose : ∀ s ∈ ss, apartAll s.acc [.kind .rightParen] = true

theorem ColorFn.named {n : List Char} {d : Def} {ss : List Slot} (h : ColorFn src M n d ss) {f : Cursor} (hf : IsKind .function f) (hcall : Called src f (n.map asciiLower))
    (hc : Clear src f) : Named src f n := by
  rw [h.lower] at hcall
  exact hcall.named hc (.inr (.inl hf)) (plainName_spec h.plain)

theorem ColorFn.closes {n : List Char} {d : Def} {ss : List Slot} (h : ColorFn src M n d ss) {w : List Cursor} (hw : Matches src M d w) (hd : Decent src w) :
    closings w ≤ opens w := by
  obtain ⟨ds, h1, h2⟩ := h.parts w hw hd
  rw [(h2.fill h1 hd).closings hd.clear h.noClose]
  exact Nat.zero_le _

theorem ColorFn.parse {n : List Char} {d : Def} {ss : List Slot} (h : ColorFn src M n d ss) {f k : Cursor} {v rest : List Cursor} (hf : IsKind .function f)
    (hn : Named src f n) (hv : Matches src M d v) (ht : Tidy src v) (hfc : Clear src f) (hk : IsKind .rightParen k) :
    Yields src (f :: (v ++ k :: rest)) colorFunction rest fun x => x.cursors.Perm (f :: (v ++ [k])) := by
  obtain ⟨ds, h1, h2⟩ := h.parts v hv ht.decent
  have hfill := h2.fills (last := closeSlot) h1 ht.decent (k := k) (Among.one.mpr hk)
  have hkc : Clear src k := clear_of_kind hk (by decide) (by decide) (by decide) (by decide)
  have ha : Among src (COLOR_FUNCTIONS.map .func) f := Among.funcs.mpr ⟨hf, n, h.mem, hn⟩
  unfold colorFunction functionOf
  refine Yields.bind (P := fun x => x = (n, f)) (ts1 := v ++ k :: rest) ?_ fun x hx => ?_
  · refine Yields.bind (Yields.tok (P' := fun x => x = f) (Exactly.funcs.yes hfc ha) rfl) fun x hx => ?_
    subst hx
    intro p hp
    exact ⟨(n, x), p, [], gives_buildKeyword.mpr ⟨rfl, rfl, n, by rw [hp.source]; exact hn, by simpa using h.mem, rfl⟩, hp, rfl⟩
  · subst hx
    dsimp only
    have := slots_yield (src := src) (last := closeSlot) rfl (after := rest) hfill h.ok (fun s hs => by
      rcases List.mem_append.mp hs with hs | hs
      · exact h.each s hs
      · rw [List.mem_singleton.mp hs]; exact closeSlot_ok) fun c hc => by
        rcases List.mem_append.mp hc with hc | hc
        · exact ht.clear c hc
        · rw [List.mem_singleton.mp hc]; exact hkc
    rw [List.map_append, ← h.args, List.append_assoc] at this
    refine Yields.bind this fun vs hvs => Yields.pure ?_
    simp [Val.cursors, Val.cursorsOf, hvs]

/-- The slots of a channel, and so on. -/
def chSlot : Slot := ⟨false, channelHeads, piece isChannel⟩
def hueSlot : Slot := ⟨false, hueHeads, piece isHue⟩
def commaSlot : Slot := ⟨true, [.kind .comma], optPiece (isKind .comma)⟩
def slashSlot : Slot := ⟨true, [.delim '/'], optPiece (isDelim '/')⟩
def alphaSlot : Slot := ⟨true, channelHeads, optPiece isChannel⟩
def spaceSlot : Slot := ⟨false, COLOR_SPACES.map .word, piece (isKeyword COLOR_SPACES)⟩

theorem alpha_slots : SlotsFor src M Spec.alpha [slashSlot, alphaSlot] := .may rfl (.delim (by decide)) (.may rfl .channel .nil)
theorem legacy_slots {first : Def} {s : Slot} (h : One src M first s.acc) :
    SlotsFor src M ([first, maybeComma, Spec.channel, maybeComma, Spec.channel, maybeComma] ++ Spec.alpha) [s, commaSlot, chSlot, commaSlot, chSlot, commaSlot, slashSlot, alphaSlot] :=
  .need h (.may rfl .comma (.need .channel (.may rfl .comma (.need .channel (.may rfl .comma alpha_slots)))))
theorem modern_slots {a b c : Def} {r s t : Slot} (ha : One src M a r.acc) (hb : One src M b s.acc) (hc : One src M c t.acc) :
    SlotsFor src M ([a, b, c] ++ Spec.alpha) [r, s, t, slashSlot, alphaSlot] := .need ha (.need hb (.need hc alpha_slots))

theorem slots_each : ∀ s ∈ [chSlot, hueSlot, commaSlot, slashSlot, alphaSlot, spaceSlot], s.Ok src := by
  intro s hs
  simp only [List.mem_cons, List.not_mem_nil, or_false] at hs
  rcases hs with rfl | rfl | rfl | rfl | rfl | rfl
  · exact piece_ok .channel
  · exact piece_ok .hue
  · exact optPiece_ok .kind
  · exact optPiece_ok .delim
  · exact optPiece_ok .channel
  · exact piece_ok .words

theorem inTurn_parts {ds : List Def} {ss : List Slot} (h : SlotsFor src M ds ss) : ∀ w, Matches src M (inTurn ds) w → Decent src w → ∃ ds, MatchesSeq src M ds w ∧ SlotsFor src M ds ss :=
  fun w hw _ => by cases hw with | ordered hw => exact ⟨ds, hw, h⟩

theorem some_slots {ss : List Slot} (h : ∀ s ∈ ss, s ∈ [chSlot, hueSlot, commaSlot, slashSlot, alphaSlot, spaceSlot]) : ∀ s ∈ ss, s.Ok src := fun s hs => slots_each s (h s hs)

theorem color_fn {n : List Char} {ds : List Def} {ss : List Slot} (h : SlotsFor src M ds ss) (h1 : (n ∈ COLOR_FUNCTIONS ∧ n.map asciiLower = n) ∧ plainName n = true)
    (h2 : colorArguments n = ss.map (·.prog)) (h3 : ∀ s ∈ ss, s ∈ [chSlot, hueSlot, commaSlot, slashSlot, alphaSlot, spaceSlot])
    (h4 : slotsOk (ss ++ [closeSlot]) = true) (h5 : (ss.all fun s => apartAll s.acc [.kind .rightParen]) = true) : ColorFn src M n (inTurn ds) ss :=
  ⟨h1.1.1, h1.1.2, h1.2, h2, inTurn_parts h, h4, some_slots h3, List.all_eq_true.mp h5⟩

/-- All of the color functions. -/
theorem color_functions {n : List Char} {d : Def} (h : .function n d ∈ (match colorDef with | .comb ds _ => ds | _ => [])) : ∃ ss, ColorFn src M n d ss := by
  simp only [colorDef, alts, List.mem_cons, List.not_mem_nil, or_false, oneOf, Def.function.injEq, reduceCtorEq, false_or] at h
  rcases h with ⟨rfl, rfl⟩ | ⟨rfl, rfl⟩ | ⟨rfl, rfl⟩ | ⟨rfl, rfl⟩ | ⟨rfl, rfl⟩ | ⟨rfl, rfl⟩ | ⟨rfl, rfl⟩ | ⟨rfl, rfl⟩ | ⟨rfl, rfl⟩ | ⟨rfl, rfl⟩
  · exact ⟨_, color_fn (.need (s := spaceSlot) (.words (by decide +kernel)) (modern_slots (r := chSlot) (s := chSlot) (t := chSlot) .channel .channel .channel))
      (by decide +kernel) rfl (by simp) (by decide +kernel) (by decide +kernel)⟩
  · exact ⟨_, color_fn (legacy_slots (s := chSlot) .channel) (by decide +kernel) rfl (by simp) (by decide +kernel) (by decide +kernel)⟩
  · exact ⟨_, color_fn (legacy_slots (s := chSlot) .channel) (by decide +kernel) rfl (by simp) (by decide +kernel) (by decide +kernel)⟩
  · exact ⟨_, color_fn (legacy_slots (s := hueSlot) .hue) (by decide +kernel) rfl (by simp) (by decide +kernel) (by decide +kernel)⟩
  · exact ⟨_, color_fn (legacy_slots (s := hueSlot) .hue) (by decide +kernel) rfl (by simp) (by decide +kernel) (by decide +kernel)⟩
  · exact ⟨_, color_fn (modern_slots (r := hueSlot) (s := chSlot) (t := chSlot) .hue .channel .channel) (by decide +kernel) rfl (by simp) (by decide +kernel) (by decide +kernel)⟩
  · exact ⟨_, color_fn (modern_slots (r := chSlot) (s := chSlot) (t := chSlot) .channel .channel .channel) (by decide +kernel) rfl (by simp) (by decide +kernel) (by decide +kernel)⟩
  · exact ⟨_, color_fn (modern_slots (r := chSlot) (s := chSlot) (t := chSlot) .channel .channel .channel) (by decide +kernel) rfl (by simp) (by decide +kernel) (by decide +kernel)⟩
  · exact ⟨_, color_fn (modern_slots (r := chSlot) (s := chSlot) (t := hueSlot) .channel .channel .hue) (by decide +kernel) rfl (by simp) (by decide +kernel) (by decide +kernel)⟩
  · exact ⟨_, color_fn (modern_slots (r := chSlot) (s := chSlot) (t := hueSlot) .channel .channel .hue) (by decide +kernel) rfl (by simp) (by decide +kernel) (by decide +kernel)⟩

end
end Hdx
