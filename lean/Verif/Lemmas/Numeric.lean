/-
Helper lemmas: numeric and ident-like tokens in terms of the grammar.
-/
import Verif.Lemmas.Units
import Verif.Lemmas.TokenLemmas

namespace Hdx
open Spec

theorem nul_not_nameStart : ¬ NameStart NUL := fun h => nul_not_nameChar (Or.inl h)

theorem dash_not_nameStart : ¬ NameStart '-' := by rw [← isIdentStart_iff]; decide

theorem isIdentStartSequence_iff (cs : List Char) :
    isIdentStartSequence (peekNth cs 0) (peekNth cs 1) (peekNth cs 2) = true ↔ StartsName cs := by
  cases cs with
  | nil =>
    simp only [peekNth_nil, StartsName]
    constructor
    · intro h; exact absurd h (by decide)
    · rintro (h | ⟨r, h, _⟩ | ⟨r, h, _⟩)
      · exact absurd h (not_starts_nil _)
      · simp at h
      · simp at h
  | cons c cs =>
    simp only [peekNth_cons_zero, peekNth_cons_succ, isIdentStartSequence]
    by_cases hc : c = '-'
    · subst hc
      simp only [BEq.rfl, if_true, StartsName, starts_cons]
      have h1 : ¬ NameStart '-' := dash_not_nameStart
      have h2 : ¬ StartsEscape ('-' :: cs) := by rintro ⟨r, h, _⟩; simp at h
      simp only [h1, h2, false_or, List.cons.injEq, true_and, exists_eq_left']
      have h3 : isEscapeSequence (peekNth cs 0) (peekNth cs 1) = true ↔ StartsEscape cs := by
        cases cs with
        | nil =>
          constructor
          · intro h; exact absurd h (by decide)
          · rintro ⟨r, h, _⟩; simp at h
        | cons d cs => simp only [peekNth_cons_zero, peekNth_cons_succ, isEscapeSequence_iff]
      have h4 : (peekNth cs 0 == '-' || isIdentStart (peekNth cs 0)) = true ↔ Starts (fun c => c = '-' ∨ NameStart c) cs := by
        refine peek_iff_starts (fun c => c == '-' || isIdentStart c) _ ?_ ?_ cs
        · intro c; simp [isIdentStart_iff]
        · rintro (h | h)
          · exact absurd h (by decide)
          · exact nul_not_nameStart h
      rw [Bool.or_eq_true, h3, h4]
    · have hc' : (c == '-') = false := by simp [hc]
      simp only [hc', Bool.false_eq_true, if_false, StartsName, starts_cons, Bool.or_eq_true, isEscapeSequence_iff,
        isIdentStart_iff]
      constructor
      · rintro (h | h)
        · exact Or.inl h
        · exact Or.inr (Or.inl h)
      · rintro (h | h | ⟨r, h, _⟩)
        · exact Or.inl h
        · exact Or.inr h
        · simp at h; exact absurd h.1 hc

theorem startsName_not_ends {cs : List Char} (h : StartsName cs) : ¬ NameEnds cs := by
  rintro ⟨h1, h2⟩
  rcases h with ⟨c, r, rfl, hc⟩ | h | ⟨r, rfl, _⟩
  · exact h1 (by simp; exact Or.inl (Or.inl hc))
  · exact h2 h
  · exact h1 (by simp; exact Or.inl dash_nameChar)

theorem isNumberStart_iff (cs : List Char) : isNumberStart cs = true ↔ StartsNumber cs := by
  constructor
  · intro h
    obtain ⟨s, i, f, e, hp, h1, h2, _⟩ := consumeNumber_spec h
    exact ⟨_, h2.1, h2.2.1⟩
  · rintro ⟨t, ⟨s, i, f, e, hp, rfl⟩, z, rfl⟩
    have hfirst : ∃ c r, i ++ (f ++ e) ++ z = c :: r ∧ (isDigit c = true ∨ (c = '.' ∧ isDigit (peekNth r 0) = true)) := by
      have hi := hp.isInt
      have hf := hp.isFrac
      match hi' : i with
      | d :: i => exact ⟨d, _, rfl, Or.inl ((isDigit_iff d).mpr (hi d (by simp)))⟩
      | [] =>
        cases hf with
        | none => have := hp.nonempty; simp at this
        | @some ds hd hne =>
          match ds, hne with
          | d :: ds, _ => exact ⟨'.', _, rfl, Or.inr ⟨rfl, by simpa using (isDigit_iff d).mpr (hd d (by simp))⟩⟩
    obtain ⟨c, r, hcr, hc⟩ := hfirst
    have hs := hp.isSign
    rw [List.append_assoc, hcr]
    cases hs with
    | none =>
      rcases hc with h | ⟨h, h'⟩
      · simp [isNumberStart, h]
      · simp [isNumberStart, h, h']
    | plus =>
      rcases hc with h | ⟨h, h'⟩
      · simp [isNumberStart, h, isSign]
      · simp [isNumberStart, h, h', isSign]
    | minus =>
      rcases hc with h | ⟨h, h'⟩
      · simp [isNumberStart, h, isSign]
      · simp [isNumberStart, h, h', isSign]

/-- A numeric token in terms of the grammar. -/
theorem consumeNumeric_spec {cs : List Char} (h : isNumberStart cs = true) :
    ∃ s i f e r, NumberParts s i f e ∧ cs = (s ++ (i ++ (f ++ e))) ++ r ∧ LongestNumber cs (s ++ (i ++ (f ++ e))) ∧
      ∃ fl sg : Bool, (fl = true ↔ f ≠ [] ∨ e ≠ []) ∧ (sg = true ↔ s ≠ []) ∧
        let num := s ++ (i ++ (f ++ e))
        (∀ r', r = '%' :: r' → consumeNumeric cs = (Token.newDimension fl sg (w32 num.length) 1#32 (F32.parse num) .percent, r'))
        ∧ (¬ Starts (· = '%') r → StartsName r →
            consumeNumeric cs = (Token.newDimension fl sg (w32 num.length) (w32 (consumeUnit r).2.1) (F32.parse num)
              (consumeUnit r).1, (consumeUnit r).2.2))
        ∧ (¬ Starts (· = '%') r → ¬ StartsName r →
            consumeNumeric cs = (Token.newNumber fl sg (w32 num.length) (F32.parse num), r)) := by
  obtain ⟨s, i, f, e, hp, h1, h2, h3, h4, h5⟩ := consumeNumber_spec h
  refine ⟨s, i, f, e, _, hp, h1, h2, _, _, h4, h5, ?_⟩
  have ht : cs.take (s ++ (i ++ (f ++ e))).length = s ++ (i ++ (f ++ e)) := by
    conv => lhs; rw [h1]
    rw [List.take_left']; rfl
  simp only
  generalize hC : consumeNumber cs = C at *
  obtain ⟨n, fl, sg, r⟩ := C
  simp only at *
  subst h3
  refine ⟨?_, ?_, ?_⟩
  · rintro r' rfl
    simp only [consumeNumeric, hC, ht]
    simp
  · intro hp hn
    have hp' : (peekNth r 0 == '%') = false := by
      rw [Bool.eq_false_iff]; intro hh
      exact hp ((peek_iff_starts (· == '%') (· = '%') (by simp) (by decide) r).mp hh)
    simp only [consumeNumeric, hC, ht, hp', (isIdentStartSequence_iff r).mpr hn, if_true, Bool.false_eq_true, if_false]
  · intro hp hn
    have hp' : (peekNth r 0 == '%') = false := by
      rw [Bool.eq_false_iff]; intro hh
      exact hp ((peek_iff_starts (· == '%') (· = '%') (by simp) (by decide) r).mp hh)
    have hn' : isIdentStartSequence (peekNth r 0) (peekNth r 1) (peekNth r 2) = false := by
      rw [Bool.eq_false_iff]; intro hh; exact hn ((isIdentStartSequence_iff r).mp hh)
    simp only [consumeNumeric, hC, ht, hp', hn', Bool.false_eq_true, if_false]

/-- The flags of an ident-like token in terms of its name elements. -/
structure NameFlags (us : List NameUnit) (nonLower dashed esc urlLike : Bool) : Prop where
  esc : esc = true ↔ HasEsc us
  nonLower_of : HasNonLower us → nonLower = true
  of_nonLower : nonLower = true → ∃ c, NameUnit.chr c ∈ us ∧ c ≠ NUL ∧ ¬ Lower c
  dashed : NameUnit.chr NUL ∉ us → (dashed = true ↔ StartsDashed us)
  urlLike : urlLike = true ↔ UrlFitsFrom 0 us

/-- An ident-like token in terms of the grammar. -/
theorem consumeIdentLike_spec {cs : List Char} (ha : EscAscii cs) :
    ∃ us rest nl d e u, NameScan cs us rest ∧ NameFlags us nl d e u ∧
      (∀ r, rest = '(' :: r → (u && !isQuote (peekPastWs 4 r)) = true →
        consumeIdentLike cs = .ok (consumeUrl (utf8Len (nameText us) + 1) e r))
      ∧ (∀ r, rest = '(' :: r → (u && !isQuote (peekPastWs 4 r)) = false →
        consumeIdentLike cs = .ok (Token.newFunction nl d e (w32 (utf8Len (nameText us) + 1)), r))
      ∧ (¬ Starts (· = '(') rest →
        consumeIdentLike cs = .ok (Token.newIdent nl d e (w32 (utf8Len (nameText us))), rest)) := by
  obtain ⟨⟨s', rest⟩, hok⟩ := (urlKeywordLoop_spec {} cs).1 ha
  have hspec := (urlKeywordLoop_spec {} cs).2
  obtain ⟨us, h1, h2, h3, h4, h5, h6, h7, h8⟩ := hspec s' rest hok
  have h2 := h2 ha
  simp only [Nat.zero_add] at h2
  refine ⟨us, rest, s'.nonLower, s'.dashed, s'.esc, s'.urlLike, h1, ⟨by simpa using h3, fun h => h4 (Or.inr h),
    by simpa using h5, by simpa using h6, by simpa using h7⟩, ?_⟩
  rw [consumeIdentLike, hok]
  simp only [← h2]
  dsimp only [bind, Except.bind, pure, Except.pure]
  refine ⟨?_, ?_, ?_⟩
  · rintro r rfl hb
    rw [if_pos (show (peekNth ('(' :: r) 0 == '(') = true from rfl)]
    show (if (s'.urlLike && !isQuote (peekPastWs 4 r)) = true then _ else _) = _
    rw [if_pos hb]; rfl
  · rintro r rfl hb
    rw [if_pos (show (peekNth ('(' :: r) 0 == '(') = true from rfl)]
    show (if (s'.urlLike && !isQuote (peekPastWs 4 r)) = true then _ else _) = _
    rw [if_neg (by simp [hb])]; rfl
  · intro hc
    have : ¬ (peekNth rest 0 == '(') = true := by
      intro hh
      exact hc ((peek_iff_starts (· == '(') (· = '(') (by simp) (by decide) rest).mp hh)
    rw [if_neg this]

theorem nameScan_nonempty {cs rest : List Char} {us : List NameUnit} (h : NameScan cs us rest) (hc : ¬ NameEnds cs) :
    nameText us ≠ [] := by
  intro hn
  apply hc
  rw [h.split, hn]
  exact h.ends

end Hdx
