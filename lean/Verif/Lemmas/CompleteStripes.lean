/-
Stripes and symbols: all of them are taken.
-/
import Verif.Lemmas.CompleteTypes
import Verif.Model.Counters
import Verif.Spec.Counters

namespace Hdx
open Spec Prog

section
variable {src : List Char} {M : Meaning}

/-! ### `stripes()` -/

def thicknessHeads : List Head := [.unit c!"fr"] ++ (.zero :: .unit c!"%" :: lengthUnits.map .unit)

theorem Exactly.flex : Exactly src (isDimensionOf .fr) [.unit c!"fr"] := by
  intro c hc
  obtain ⟨b, h1, h2, h3⟩ := Exactly.dimension (u := .fr) (s := c!"fr") (plainName_spec (by decide)) rfl hc
  refine ⟨b, h1, fun h => ?_, h3⟩
  obtain ⟨x, hx, h⟩ := h2 h
  refine ⟨x, ?_, h⟩
  revert hx
  show x ∈ [Head.unit c!"fr", Head.unit c!"fr"] → _
  simp

theorem thickness_exactly : Exactly src isThickness thicknessHeads := .either .flex .lengthPercentage

theorem thickness_among {t : Cursor} (h : IsThickness src M t) (hc : Clear src t) (hd : Decent src [t]) : Among src thicknessHeads t := by
  unfold thicknessHeads
  rw [Among.append]
  rcases h with h | h
  · exact .inl (Among.one.mpr (h.has hc (plainName_spec (by decide))))
  · obtain ⟨c, e, h⟩ := One.lengthPercentage h hd
    cases e
    exact .inr h

theorem optPiece_some {test : Cursor → Prog Bool} {acc : List Head} (h : Exactly src test acc) {c : Cursor} {ts : List Cursor} (hc : Clear src c) (ha : Among src acc c) :
    Yields src (c :: ts) (optPiece test) ts fun v => v = .opt (some (.tok c)) := by
  unfold optPiece
  exact Yields.bind ((OptTok.tok h).take hc ha) fun r hr => Yields.pure (by rw [hr]; rfl)
theorem optPiece_none {test : Cursor → Prog Bool} {acc : List Head} (h : Exactly src test acc) {c : Cursor} {ts : List Cursor} (hc : Clear src c) (ha : ¬ Among src acc c) :
    Yields src (c :: ts) (optPiece test) (c :: ts) fun v => v = .opt none := by
  unfold optPiece
  exact Yields.bind ((OptTok.tok h).skip hc ha) fun r hr => Yields.pure (by rw [hr]; rfl)

theorem IsStripe.ne {w : List Cursor} (h : IsStripe src M w) (hd : Decent src w) : ∃ c w', w = c :: w' ∧ ¬ IsKind .rightParen c ∧ Clear src c := by
  obtain ⟨col, thick, hcol, hth, hw⟩ := h
  have key : ∀ v, w = col ++ v → ∃ c w', w = c :: w' ∧ ¬ IsKind .rightParen c ∧ Clear src c := fun v e => by
    subst e
    obtain ⟨c, w', rfl, _, ha⟩ := color_complete.starts hcol.1 hd.left
    have hc := hd.left.cons.1
    exact ⟨c, _, rfl, fun hk => apartAll_spec (a := colorInfo.firsts) (b := [.kind .rightParen]) hc (by decide +kernel) ha (Among.one.mpr hk), hc⟩
  rcases hw with hw | hw
  · exact key _ hw
  · cases thick with
    | none => exact key [] (by simpa using hw)
    | some t =>
      subst hw
      have hc := hd.cons.1
      exact ⟨t, _, rfl, fun hk => apartAll_spec (a := thicknessHeads) (b := [.kind .rightParen]) hc (by decide +kernel) (thickness_among (hth t rfl) hc hd.left) (Among.one.mpr hk), hc⟩

theorem stripe_yields {w : List Cursor} {comma : Option Cursor} {d : Cursor} {rest : List Cursor} (h : IsStripe src M w) (hd : Decent src w) (hcomma : ∀ k ∈ comma, IsKind .comma k)
    (hdc : Clear src d) (hend : comma = none → IsKind .rightParen d) :
    Yields src (w ++ (comma.toList ++ d :: rest)) colorStripe (d :: rest) fun v => v.cursors.Perm (w ++ comma.toList) := by
  obtain ⟨col, thick, hcol, hth, hw⟩ := h
  have hcc : ∀ k ∈ comma, Clear src k := fun k hk => clear_of_kind (hcomma k hk) (by decide) (by decide) (by decide) (by decide)
  have hlast : Yields src (comma.toList ++ d :: rest) (optPiece (isKind .comma)) (d :: rest) fun v => v = .opt (comma.map .tok) := by
    cases comma with
    | some k => exact optPiece_some (acc := [.kind .comma]) .kind (hcc k rfl) (Among.one.mpr (hcomma k rfl))
    | none =>
      exact optPiece_none (acc := [.kind .comma]) .kind hdc fun h => apartAll_spec (a := [.kind .comma]) (b := [.kind .rightParen]) hdc (by decide) h (Among.one.mpr (hend rfl))
  -- what follows the color and the thickness
  have hnext : ∃ e r, comma.toList ++ d :: rest = e :: r ∧ Clear src e ∧ (IsKind .comma e ∨ IsKind .rightParen e) := by
    cases comma with
    | some k => exact ⟨k, _, rfl, hcc k rfl, .inl (hcomma k rfl)⟩
    | none => exact ⟨d, _, rfl, hdc, .inr (hend rfl)⟩
  have htail : ∀ {v : Val}, Yields src (comma.toList ++ d :: rest) (do let c ← optPiece (isKind .comma); Pure.pure (Val.fields [v, .opt (thick.map .tok), c])) (d :: rest)
      fun (x : Val) => x.cursors = v.cursors ++ (thick.toList ++ comma.toList) := fun {v} => by
    refine Yields.bind hlast fun c hc => Yields.pure ?_
    subst hc
    cases thick <;> cases comma <;> simp [Val.cursors, Val.cursorsOf, Val.opt]
  have hdcol : Decent src col := by
    rcases hw with rfl | rfl
    · exact hd.left
    · exact hd.right
  have hdth : ∀ t ∈ thick, Clear src t ∧ Among src thicknessHeads t := fun t ht => by
    cases ht
    have : Decent src [t] := by
      rcases hw with rfl | rfl
      · exact hd.right
      · exact hd.left
    exact ⟨this.cons.1, thickness_among (hth t rfl) this.cons.1 this⟩
  have hcolor : ∀ e r, Clear src e → Yields src (col ++ e :: r) color (e :: r) fun v => v.cursors.Perm col := fun e r he =>
    color_complete.parse hcol.1 (hdcol.tidy hcol.2) he Among.none
  -- a color first
  have hfirst : Yields src (col ++ (thick.toList ++ (comma.toList ++ d :: rest))) colorStripe (d :: rest) fun v => v.cursors.Perm (col ++ (thick.toList ++ comma.toList)) := by
    obtain ⟨c, col', e, ht, ha⟩ := color_complete.starts hcol.1 hdcol
    have hmid : ∃ e r, thick.toList ++ (comma.toList ++ d :: rest) = e :: r ∧ Clear src e := by
      cases thick with
      | some t => exact ⟨t, _, rfl, (hdth t rfl).1⟩
      | none =>
        obtain ⟨e, r, h1, h2, _⟩ := hnext
        exact ⟨e, r, h1, h2⟩
    obtain ⟨e1, r1, he1, hce1⟩ := hmid
    have h1 := hcolor e1 r1 hce1
    rw [← he1] at h1
    unfold colorStripe
    refine Yields.bind (P := fun o => ∃ a, o = some a ∧ a.cursors.Perm col) (ts1 := thick.toList ++ (comma.toList ++ d :: rest)) ?_ fun o ⟨a, ho, ha⟩ => ?_
    · rw [e] at h1 ⊢
      exact Yields.ifPeek_some ht h1
    · subst ho
      refine Yields.bind (P := fun v => v = .opt (thick.map .tok)) (ts1 := comma.toList ++ d :: rest) ?_ fun v hv => ?_
      · cases thick with
        | some t => exact optPiece_some thickness_exactly (hdth t rfl).1 (hdth t rfl).2
        | none =>
          obtain ⟨e, r, h1, h2, h3⟩ := hnext
          simp only [Option.toList_none, List.nil_append]
          rw [h1]
          refine optPiece_none thickness_exactly h2 fun h => ?_
          rcases h3 with h3 | h3
          · exact apartAll_spec (b := [.kind .comma]) h2 (by decide +kernel) h (Among.one.mpr h3)
          · exact apartAll_spec (b := [.kind .rightParen]) h2 (by decide +kernel) h (Among.one.mpr h3)
      · subst hv
        refine Yields.bind (P := fun x => x = a) (Yields.pure rfl) fun x hx => ?_
        subst hx
        exact htail.mono fun x hx => by rw [hx]; exact ha.append_right _
  have hsecond : ∀ t, thick = some t → Yields src (t :: (col ++ (comma.toList ++ d :: rest))) colorStripe (d :: rest) fun v => v.cursors.Perm (t :: (col ++ comma.toList)) := by
    rintro t rfl
    obtain ⟨hct, hat⟩ := hdth t rfl
    obtain ⟨e, r, he, hce, _⟩ := hnext
    unfold colorStripe
    refine Yields.bind (P := fun o => o = none) (ts1 := t :: (col ++ (comma.toList ++ d :: rest))) (Yields.ifPeek_none (color_exactly.no hct fun h =>
      apartAll_spec (a := thicknessHeads) (b := colorInfo.acc) hct (by decide +kernel) hat h)) fun o ho => ?_
    subst ho
    refine Yields.bind (optPiece_some thickness_exactly hct hat) fun v hv => ?_
    subst hv
    refine Yields.bind (P := fun a => a.cursors.Perm col) (ts1 := comma.toList ++ d :: rest) ?_ fun a ha => ?_
    · rw [he]
      exact hcolor e r hce
    · refine htail.mono fun x hx => ?_
      rw [hx]
      simp only [Option.toList_some, List.cons_append, List.nil_append]
      exact List.perm_middle.trans ((ha.append_right _).cons t)
  rcases hw with rfl | rfl
  · rw [List.append_assoc, List.append_assoc]; exact hfirst
  · cases thick with
    | none => simpa using hfirst
    | some t => exact hsecond t rfl

theorem stripes_loop {k : Cursor} {rest : List Cursor} (hk : IsKind .rightParen k) {w : List Cursor} (h : IsStripes src M w) :
    ∀ m vs, w.length < m → Decent src w → Yields src (w ++ k :: rest) (stripesLoop m vs) rest fun r => r.2 = k ∧ ∃ us, r.1 = vs ++ us ∧ (Val.cursorsOf us).Perm w := by
  have hkc : Clear src k := clear_of_kind hk (by decide) (by decide) (by decide) (by decide)
  have hend : ∀ m vs, 0 < m → Yields src (k :: rest) (stripesLoop m vs) rest fun r => r = (vs, k) := by
    intro m vs hm
    obtain ⟨m, rfl⟩ : ∃ m', m = m' + 1 := ⟨m - 1, by omega⟩
    unfold stripesLoop
    refine Yields.peek (Yields.pos hk (Yields.bind (Yields.tok (P' := fun x => x = k) (Tests.kind.congr hk) rfl) fun x hx => Yields.pure ?_))
    rw [hx]
  induction h with
  | @last w hw =>
    intro m vs hm hd
    obtain ⟨m, rfl⟩ : ∃ m', m = m' + 1 := ⟨m - 1, by omega⟩
    obtain ⟨c, w', e, hn, hc⟩ := IsStripe.ne hw hd
    have h1 := stripe_yields (rest := rest) (comma := none) hw hd nofun hkc fun _ => hk
    simp only [Option.toList_none, List.nil_append] at h1
    have hlen : 0 < m := by rw [e] at hm; simp at hm; omega
    unfold stripesLoop
    rw [e] at h1 ⊢
    refine Yields.peek (Yields.neg hn (Yields.bind h1 fun v hv => (hend m _ hlen).mono fun r hr => ?_))
    subst hr
    exact ⟨rfl, [v], rfl, by simpa [Val.cursorsOf] using hv⟩
  | @more w v k' hw hk' hv ih =>
    intro m vs hm hd
    obtain ⟨m, rfl⟩ : ∃ m', m = m' + 1 := ⟨m - 1, by omega⟩
    obtain ⟨c, w', e, hn, hc⟩ := IsStripe.ne hw hd.left
    have hdv : Decent src v := hd.right.cons.2
    have hmid : ∃ e r, v ++ k :: rest = e :: r ∧ Clear src e := by
      cases v with
      | nil => exact ⟨k, rest, rfl, hkc⟩
      | cons x v => exact ⟨x, _, rfl, hdv.cons.1⟩
    obtain ⟨e1, r1, he1, hce1⟩ := hmid
    have h1 := stripe_yields (rest := r1) (comma := some k') hw hd.left (by rintro _ ⟨⟩; exact hk') hce1 nofun
    rw [← he1] at h1
    unfold stripesLoop
    rw [show w ++ k' :: v ++ k :: rest = w ++ ((some k').toList ++ (v ++ k :: rest)) by simp]
    rw [e] at h1 ⊢
    refine Yields.peek (Yields.neg hn (Yields.bind h1 fun x hx => (ih m _ (by simp at hm; omega) hdv).mono ?_))
    rintro ⟨a, b⟩ ⟨rfl, us, rfl, hu⟩
    refine ⟨rfl, x :: us, by simp, ?_⟩
    rw [show Val.cursorsOf (x :: us) = x.cursors ++ Val.cursorsOf us by simp [Val.cursorsOf]]
    have := hx.append hu
    simpa using this

theorem image1D_yields {f k : Cursor} {w rest : List Cursor} (hf : IsKind .function f) (hn : Named src f c!"stripes") (hc : Clear src f) (hw : IsStripes src M w)
    (hd : Decent src w) (hk : IsKind .rightParen k) : Yields src (f :: (w ++ k :: rest)) image1D rest fun v => v.cursors.Perm (f :: (w ++ [k])) := by
  unfold image1D
  refine Yields.bind (namedFunction_yields (by decide) hf hn hc) fun x hx => ?_
  subst hx
  refine Yields.read fun p hp => Yields.bind (stripes_loop hk hw p.fuel [] (by simp at hp; omega) hd) ?_
  rintro ⟨vs, close⟩ ⟨rfl, us, e, hu⟩
  simp only [List.nil_append] at e
  subst e
  refine Yields.pure ?_
  simp only [Val.cursors, Val.cursorsOf, List.append_nil, List.cons_append, List.nil_append]
  exact (hu.append_right _).cons x

/-! ### `symbols()` -/

/-- A string, or a url without quotes. -/
theorem symbol_yields {c : Cursor} {rest : List Cursor} (h : IsKind .string c ∨ IsKind .url c) : Yields src (c :: rest) symbol rest fun v => v.cursors = [c] := by
  unfold symbol
  rcases h with h | h
  · refine Yields.peek (Yields.pos h (Yields.bind (P := fun v => v = .tok c) ?_ fun v hv => Yields.pure (by subst hv; rfl)))
    exact Yields.bind (Yields.tok (P' := fun x => x = c) (Tests.kind.congr h) rfl) fun x hx => Yields.pure (by rw [hx])
  · have hs : ¬ c.token.isKind .string = true := by
      have := IsKind.other h (by decide) (k' := .string) (by decide) (by decide)
      simpa using this
    refine Yields.peek (Yields.neg hs (Yields.bind (P := fun v => v = .variant 0 (.tok c)) ?_ fun v hv => Yields.pure (by subst hv; rfl)))
    unfold image
    refine Yields.peek (Yields.pos h (Yields.bind (P := fun v => v = .tok c) ?_ fun v hv => Yields.pure (by rw [hv])))
    exact Yields.bind (Yields.tok (P' := fun x => x = c) (Tests.kind.congr h) rfl) fun x hx => Yields.pure (by rw [hx])

theorem symbols_loop {k : Cursor} {rest : List Cursor} (hk : IsKind .rightParen k) {w : List Cursor} (h : ∀ c ∈ w, IsKind .string c ∨ IsKind .url c) :
    ∀ m vs, w.length < m → Yields src (w ++ k :: rest) (symbolsLoop m vs) rest fun r => r.2 = some k ∧ ∃ us, r.1 = vs ++ us ∧ Val.cursorsOf us = w ∧ us.length = w.length := by
  have hkc : Clear src k := clear_of_kind hk (by decide) (by decide) (by decide) (by decide)
  induction w with
  | nil =>
    intro m vs hm
    obtain ⟨m, rfl⟩ : ∃ m', m = m' + 1 := ⟨m - 1, by omega⟩
    unfold symbolsLoop
    refine Yields.atEnd (Yields.neg (by decide) (Yields.bind ((OptTok.tok (acc := [.kind .rightParen]) .kind).take hkc (Among.one.mpr hk)) fun o ho => ?_))
    subst ho
    exact Yields.pure ⟨rfl, [], by simp, rfl, rfl⟩
  | cons c w ih =>
    intro m vs hm
    obtain ⟨m, rfl⟩ : ∃ m', m = m' + 1 := ⟨m - 1, by omega⟩
    have hc := h c (.head _)
    have hcc : Clear src c := by
      rcases hc with hc | hc
      · exact clear_of_kind hc (by decide) (by decide) (by decide) (by decide)
      · exact clear_of_kind hc (by decide) (by decide) (by decide) (by decide)
    unfold symbolsLoop
    refine Yields.atEnd (Yields.neg (by decide) (Yields.bind ((OptTok.tok (acc := [.kind .rightParen]) .kind).skip hcc fun ha => ?_) fun o ho => ?_))
    · rcases hc with hc | hc
      · exact apartAll_spec (a := [.kind .rightParen]) (b := [.kind .string]) hcc (by decide) ha (Among.one.mpr hc)
      · exact apartAll_spec (a := [.kind .rightParen]) (b := [.kind .url]) hcc (by decide) ha (Among.one.mpr hc)
    · subst ho
      refine Yields.bind (symbol_yields hc) fun v hv => (ih (fun c hc => h c (.tail _ hc)) m _ (by simp at hm; omega)).mono ?_
      rintro ⟨a, b⟩ ⟨h1, us, rfl, h2, h3⟩
      exact ⟨h1, v :: us, by simp, by simp [Val.cursorsOf, hv, h2], by simp [h3]⟩

theorem symbols_yields {f k : Cursor} {type : Option Cursor} {w rest : List Cursor} (hf : IsKind .function f) (hn : Named src f c!"symbols") (hc : Clear src f)
    (htype : ∀ t ∈ type, Clear src t ∧ Among src (SYMBOLS_TYPES.map .word) t) (hw : ∀ c ∈ w, IsKind .string c ∨ IsKind .url c) (hk : IsKind .rightParen k) :
    Yields src (f :: (type.toList ++ (w ++ k :: rest))) symbols rest fun v => v.cursors = f :: (type.toList ++ (w ++ [k])) := by
  have hkc : Clear src k := clear_of_kind hk (by decide) (by decide) (by decide) (by decide)
  have hwc : ∀ c ∈ w, Clear src c := fun c h => by
    rcases hw c h with hc | hc
    · exact clear_of_kind hc (by decide) (by decide) (by decide) (by decide)
    · exact clear_of_kind hc (by decide) (by decide) (by decide) (by decide)
  unfold symbols
  refine Yields.bind (namedFunction_yields (by decide) hf hn hc) fun x hx => ?_
  subst hx
  by_cases hemp : type = none ∧ w = []
  · obtain ⟨rfl, rfl⟩ := hemp
    refine Yields.bind ((OptTok.tok (acc := [.kind .rightParen]) .kind).take hkc (Among.one.mpr hk)) fun o ho => ?_
    subst ho
    exact Yields.pure (by simp [Val.cursors, Val.cursorsOf, Val.opt])
  have hskip : Yields src (type.toList ++ (w ++ k :: rest)) optionalClose (type.toList ++ (w ++ k :: rest)) fun o => o = none := by
    cases type with
    | some t =>
      exact (OptTok.tok (acc := [.kind .rightParen]) .kind).skip (htype t rfl).1 fun ha => apartAll_spec (b := SYMBOLS_TYPES.map .word) (htype t rfl).1 (by decide) ha (htype t rfl).2
    | none =>
      cases w with
      | nil => exact absurd ⟨rfl, rfl⟩ hemp
      | cons c w =>
        refine (OptTok.tok (acc := [.kind .rightParen]) .kind).skip (hwc c (.head _)) fun ha => ?_
        rcases hw c (.head _) with h | h
        · exact apartAll_spec (b := [.kind .string]) (hwc c (.head _)) (by decide) ha (Among.one.mpr h)
        · exact apartAll_spec (b := [.kind .url]) (hwc c (.head _)) (by decide) ha (Among.one.mpr h)
  refine Yields.bind hskip fun o ho => ?_
  subst ho
  refine Yields.bind (P := fun o => o = type) (ts1 := w ++ k :: rest) (OptTok.keyword.opt htype ?_) fun o ho => ?_
  · cases w with
    | nil => exact ⟨k, rest, rfl, hkc, fun ha => apartAll_spec (b := [.kind .rightParen]) hkc (by decide) ha (Among.one.mpr hk)⟩
    | cons c w =>
      refine ⟨c, _, rfl, hwc c (.head _), fun ha => ?_⟩
      rcases hw c (.head _) with h | h
      · exact apartAll_spec (b := [.kind .string]) (hwc c (.head _)) (by decide) ha (Among.one.mpr h)
      · exact apartAll_spec (b := [.kind .url]) (hwc c (.head _)) (by decide) ha (Among.one.mpr h)
  subst ho
  refine Yields.read fun p hp => Yields.bind (symbols_loop hk hw p.fuel [] (by simp at hp; omega)) ?_
  rintro ⟨vs, close⟩ ⟨h1, us, e, hu, _⟩
  simp only [List.nil_append] at e h1
  subst e h1
  refine Yields.pure ?_
  cases o <;> simp [Val.cursors, Val.cursorsOf, Val.opt, hu]

end
end Hdx
