/-
Helper lemmas: a token reads the same when another text follows it, token kind by token kind.
-/
import Verif.Lemmas.Swap
import Verif.Props.Lexical3

namespace Hdx
open Spec

/-- Two ways to split a text after the same number of bytes. -/
theorem split_eq {x z y r : List Char} (h : x ++ z = y ++ r) (hl : utf8Len x = utf8Len y) : y = x ∧ r = z := by
  have h1 := takeBytes_append x z
  have h2 := takeBytes_append y r
  rw [h, hl, h2] at h1
  injection h1 with h1
  subst h1
  exact ⟨rfl, (List.append_cancel_left h).symm⟩

/-- Where a url token ends. -/
theorem consumeUrl_rest {n : Nat} {e : Bool} {cs r : List Char} {t : Token} (h : consumeUrl n e cs = (t, r)) (ha : EscAscii cs)
    (hl : n + utf8Len cs < 2 ^ 32) : ∃ text, cs = text ++ r ∧ t.len.toNat = n + utf8Len text := by
  obtain ⟨ws, w1, w2, w3⟩ := consumeWhitespace_cover .none cs
  unfold consumeUrl at h
  simp only at h
  generalize consumeWhitespace .none cs = W at *
  obtain ⟨k, st, q⟩ := W
  simp only at w1 w2 h
  subst w1
  obtain ⟨u, e1, e2, e3⟩ := urlLoop_cover e (n + k) q ha.suffix
  match hr : urlLoop e (n + k) q with
  | (.url a b c m, r') =>
    rw [hr] at e1 e2 h
    have := e2 a b c m rfl
    simp only at e1
    subst e1
    simp only [utf8Len_append] at hl
    simp only [Prod.mk.injEq] at h
    obtain ⟨rfl, rfl⟩ := h
    refine ⟨ws ++ u, by simp, ?_⟩
    rw [newUrl_eq, len_word _ _ _ _ _ _ (by decide), w32_toNat (by omega)]
    simp; omega
  | (.bad m, r') =>
    rw [hr] at e1 e3 h
    have hm := e3 m rfl
    simp only at e1
    subst e1
    obtain ⟨t2, f1, f2⟩ := badUrlRemnants_cover m r' (EscAscii.suffix (a := ws ++ u) (by simpa using ha))
    simp only at h
    generalize badUrlRemnants m r' = B at *
    obtain ⟨k', r''⟩ := B
    simp only [Prod.mk.injEq] at f1 f2 h
    obtain ⟨rfl, rfl⟩ := h
    subst f1
    simp only [utf8Len_append] at hl
    refine ⟨ws ++ (u ++ t2), by simp, ?_⟩
    rw [newBadUrl_eq, len_word _ _ _ _ _ _ (by decide), w32_toNat (by omega)]
    simp; omega

/-! ### Ident-like tokens -/

/-- What an ident-like token is made of. -/
theorem consumeIdentLike_units {us : List NameUnit} {r : List Char} (h : IsName us r) (ha : EscAscii (nameText us ++ r)) :
    consumeIdentLike (nameText us ++ r) =
      if peekNth r 0 == '(' then
        if (urlState {} us).urlLike && !isQuote (peekPastWs 4 r.tail) then .ok (consumeUrl ((urlState {} us).len + 1) (urlState {} us).esc r.tail)
        else .ok (Token.newFunction (urlState {} us).nonLower (urlState {} us).dashed (urlState {} us).esc (w32 ((urlState {} us).len + 1)), r.tail)
      else .ok (Token.newIdent (urlState {} us).nonLower (urlState {} us).dashed (urlState {} us).esc (w32 (urlState {} us).len), r) := by
  unfold consumeIdentLike
  rw [urlKeywordLoop_units {} h.1 h.2 ha]
  simp only [bind, Except.bind, pure, Except.pure]

theorem urlState_len {us : List NameUnit} {r : List Char} (h : IsName us r) (ha : EscAscii (nameText us ++ r)) :
    (urlState {} us).len = utf8Len (nameText us) := by
  obtain ⟨us', h1, h2, _⟩ := (urlKeywordLoop_spec {} (nameText us ++ r)).2 _ _ (urlKeywordLoop_units {} h.1 h.2 ha)
  obtain ⟨rfl, _⟩ := nameScan_eq h h1
  simpa using h2 ha

theorem peek_paren (r : List Char) : (peekNth r 0 == '(') = true ↔ Starts (· = '(') r :=
  peek_iff_starts (· == '(') (· = '(') (by simp) (by decide) r

/-- Ident tokens. -/
theorem ident_swap {us : List NameUnit} {z v : List Char} (hz : IsName us z) (hv : IsName us v)
    (az : EscAscii (nameText us ++ z)) (av : EscAscii (nameText us ++ v)) (pz : ¬ Starts (· = '(') z) (pv : ¬ Starts (· = '(') v) :
    ∃ t, consumeIdentLike (nameText us ++ z) = .ok (t, z) ∧ consumeIdentLike (nameText us ++ v) = .ok (t, v) := by
  rw [consumeIdentLike_units hz az, consumeIdentLike_units hv av, if_neg (fun h => pz ((peek_paren z).mp h)),
    if_neg (fun h => pv ((peek_paren v).mp h))]
  exact ⟨_, rfl, rfl⟩

theorem paren_ends (r : List Char) : NameEnds ('(' :: r) := by
  refine ⟨?_, ?_⟩
  · rw [starts_cons]
    rintro (h | h)
    · rw [← isIdent_iff] at h; exact absurd h (by decide)
    · exact absurd h (by decide)
  · rintro ⟨q, h, _⟩; simp at h

/-- The parenthesis ends a name whatever follows. -/
theorem isName_paren {us : List NameUnit} {z : List Char} (h : IsName us ('(' :: z)) (v : List Char) : IsName us ('(' :: v) :=
  ⟨validName_swap_cons h.1, paren_ends v⟩

/-! ### Units -/

theorem unitWalk_swap {us : List NameUnit} {z v : List Char} (hz : IsName us z) (hv : IsName us v) (p : List Char) (u : DimensionUnit) :
    ∃ p' u' us', unitWalk p u (nameText us ++ z) = (p', u', nameText us' ++ z) ∧ unitWalk p u (nameText us ++ v) = (p', u', nameText us' ++ v)
      ∧ IsName us' z ∧ IsName us' v ∧ ∃ w, nameText us = w ++ nameText us' := by
  induction us generalizing p u with
  | nil => exact ⟨p, u, [], unitWalk_stop hz.2, unitWalk_stop hv.2, hz, hv, [], rfl⟩
  | cons x us ih =>
    cases x with
    | chr c =>
      rw [show nameText (.chr c :: us) ++ z = c :: (nameText us ++ z) from rfl, show nameText (.chr c :: us) ++ v = c :: (nameText us ++ v) from rfl]
      cases hs : unitStep p c with
      | none =>
        have key : ∀ q, unitWalk p u (c :: q) = (p, u, c :: q) := fun q => by simp [unitWalk, hs]
        rw [key, key]
        exact ⟨p, u, .chr c :: us, rfl, rfl, hz, hv, [], rfl⟩
      | some p' =>
        obtain ⟨p2, u2, us2, h1, h2, h3, h4, w, h5⟩ := ih ⟨hz.1.2, hz.2⟩ ⟨hv.1.2, hv.2⟩ p' (unitUpdate p' u)
        have key : ∀ q, unitWalk p u (c :: q) = unitWalk p' (unitUpdate p' u) q := fun q => by simp [unitWalk, hs]
        rw [key, key]
        exact ⟨p2, u2, us2, h1, h2, h3, h4, c :: w, by rw [List.cons_append, ← h5]; rfl⟩
    | esc e =>
      have hs : unitStep p '\\' = none := by
        cases hs : unitStep p '\\' with
        | none => rfl
        | some p' => exact absurd (unitStep_some hs).2.2.1 (by decide)
      refine ⟨p, u, .esc e :: us, ?_, ?_, hz, hv, [], rfl⟩
      · rw [show nameText (.esc e :: us) ++ z = '\\' :: (e ++ nameText us ++ z) by simp [nameText, NameUnit.text], unitWalk, hs]
      · rw [show nameText (.esc e :: us) ++ v = '\\' :: (e ++ nameText us ++ v) by simp [nameText, NameUnit.text], unitWalk, hs]

theorem consumeUnit_swap {us : List NameUnit} {z v : List Char} (hz : IsName us z) (hv : IsName us v)
    (az : EscAscii (nameText us ++ z)) (av : EscAscii (nameText us ++ v)) :
    ∃ u n, consumeUnit (nameText us ++ z) = (u, n, z) ∧ consumeUnit (nameText us ++ v) = (u, n, v) := by
  obtain ⟨p, u, us', h1, h2, h3, h4, w, h5⟩ := unitWalk_swap hz hv [] .unknown
  rw [h5, List.append_assoc] at az av
  obtain ⟨s, i1, i2⟩ := identSeq_swap h3 h4 az.suffix av.suffix
  unfold consumeUnit
  rw [h1, h2]
  simp only [i1, i2]
  split <;> exact ⟨_, _, rfl, rfl⟩

/-! ### Numbers -/

/-- Nothing in `r` continues a number that ends here. -/
structure NumberEnds (e r : List Char) : Prop where
  digit : ¬ Starts Digit r
  dot : ∀ q, r = '.' :: q → ¬ Starts Digit q
  exp : e = [] → ¬ ExpStarts r

theorem longest_of_ends {s i f e r : List Char} (hp : NumberParts s i f e) (hr : NumberEnds e r) :
    LongestNumber ((s ++ (i ++ (f ++ e))) ++ r) (s ++ (i ++ (f ++ e))) := by
  have he : ¬ Starts Digit (e ++ r) := by
    cases hE : e with
    | nil => exact hr.digit
    | cons c e' =>
      obtain ⟨c', r', h1, h2⟩ := exp_starts hp.isExp (by rw [hE]; simp)
      rw [hE] at h1; injection h1 with h1 h3
      rw [List.cons_append, starts_cons]
      intro hd
      have := digit_not_sign hd
      rw [h1] at this
      rcases h2 with rfl | rfl
      · exact this.2.2.2.1 rfl
      · exact this.2.2.2.2 rfl
  have := longest_of_parts (r := r) hp ?_ (fun _ => he) ?_ (fun _ => hr.digit) ?_
  · simpa using this
  · cases hF : f with
    | nil => exact he
    | cons c f' =>
      obtain ⟨r', h1⟩ := frac_starts hp.isFrac (by rw [hF]; simp)
      rw [hF] at h1; injection h1 with h1 h3
      rw [List.cons_append, starts_cons, h1]
      rw [← isDigit_iff]; decide
  · intro _ q hq
    cases hE : e with
    | nil => rw [hE] at hq; exact hr.dot q hq
    | cons c e' =>
      obtain ⟨c', r', h1, h2⟩ := exp_starts hp.isExp (by rw [hE]; simp)
      rw [hE] at h1 hq; injection h1 with h1 h3
      simp at hq
      rw [hq.1] at h1
      rcases h2 with rfl | rfl <;> simp at h1
  · intro h0; rw [h0]; exact hr.exp h0

/-- After the longest number there is no exponent. -/
theorem noExp_of_longest {s i f r : List Char} (hp : NumberParts s i f []) (h : LongestNumber ((s ++ (i ++ (f ++ []))) ++ r) (s ++ (i ++ (f ++ [])))) :
    ¬ ExpStarts r := by
  rintro ⟨e, sg, q, rfl, he, hs, c, q', rfl, hc⟩
  have := h.2.2 (s ++ (i ++ (f ++ (e :: (sg ++ [c]))))) ⟨s, i, f, _, ⟨hp.isSign, hp.isInt, hp.isFrac, .some he hs (by
    intro d hd; rw [List.mem_singleton.mp hd]; exact hc) (by simp), hp.nonempty⟩, rfl⟩ ⟨q', by simp⟩
  simp at this
  omega

/-- A numeric token in terms of the longest number and what follows it. -/
theorem consumeNumeric_det (num : List Char) : ∃ fl sg : Bool, ∀ r, LongestNumber (num ++ r) num →
    (∀ r', r = '%' :: r' → consumeNumeric (num ++ r) = (Token.newDimension fl sg (w32 num.length) 1#32 (F32.parse num) .percent, r'))
    ∧ (¬ Starts (· = '%') r → StartsName r →
        consumeNumeric (num ++ r) = (Token.newDimension fl sg (w32 num.length) (w32 (consumeUnit r).2.1) (F32.parse num) (consumeUnit r).1, (consumeUnit r).2.2))
    ∧ (¬ Starts (· = '%') r → ¬ StartsName r → consumeNumeric (num ++ r) = (Token.newNumber fl sg (w32 num.length) (F32.parse num), r)) := by
  classical
  refine ⟨decide ('.' ∈ num ∨ 'e' ∈ num ∨ 'E' ∈ num), decide (Starts (fun c => c = '+' ∨ c = '-') num), fun r hr => ?_⟩
  obtain ⟨s, i, f, e, r', hp, hcs, hlong, fl, sg, h1, h2, h3⟩ := consumeNumeric_spec ((isNumberStart_iff _).mpr ⟨num, hr.1, hr.2.1⟩)
  have hn := longestNumber_unique hlong hr
  have hfl : fl = decide ('.' ∈ num ∨ 'e' ∈ num ∨ 'E' ∈ num) := by
    rw [Bool.eq_iff_iff, decide_eq_true_eq, h1, float_iff hp, hn]
  have hsg : sg = decide (Starts (fun c => c = '+' ∨ c = '-') num) := by
    rw [Bool.eq_iff_iff, decide_eq_true_eq, h2, sign_iff hp, hn]
  simp only [hn] at h3 hcs
  have hr' : r' = r := (List.append_cancel_left hcs).symm
  rw [hr'] at h3
  rw [← hfl, ← hsg]
  exact h3

end Hdx
