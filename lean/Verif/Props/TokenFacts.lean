/-
C14 (unit tables), C18 (kind predicates), C19 (KindSet).
-/
import Verif.Lemmas.TokenLemmas
import Verif.Spec.Units

namespace Hdx
open Token

/-! ## C14 Dimension unit tables agree -/

/-- Full C14 for every unit except `svmax`/`svmin`: the code decodes to the unit, the string is the CSS name and `len()` is
its length. -/
theorem C14_partial (u : DimensionUnit) (name : List Char) (hn : Spec.unitName u = some name)
    (hne : u ≠ .svmax ∧ u ≠ .svmin) :
    DimensionUnit.ofCode u.code = u ∧ u.str = name ∧ u.len = name.length := by
  obtain ⟨h1, h2⟩ := hne
  cases u <;> first
    | contradiction
    | (injection hn with hn; subst hn; exact ⟨rfl, rfl, rfl⟩)

example : Spec.unitName .rem = some c!"rem" ∧ DimensionUnit.rem ≠ .svmax ∧ DimensionUnit.rem ≠ .svmin := by decide

/-- Codes and lengths are right for every unit, including the two with the wrong string. -/
theorem C57_code_len (u : DimensionUnit) (name : List Char) (hn : Spec.unitName u = some name) :
    DimensionUnit.ofCode u.code = u ∧ u.len = name.length := by
  cases u <;> first
    | contradiction
    | (injection hn with hn; subst hn; exact ⟨rfl, rfl⟩)

/-- No two known units share a code, and no known unit has the code of `Unknown`. -/
theorem C57_code_injective (u v : DimensionUnit) (h : u.code = v.code) : u = v := by
  rw [← ofCode_code u, ← ofCode_code v, h]

/-- What is missing from `C14_partial`: the strings of `svmax` and `svmin` are swapped (dimension_unit.rs:291-292). -/
theorem C14_counterexample :
    DimensionUnit.svmax.str = c!"svmin" ∧ DimensionUnit.svmin.str = c!"svmax" := by decide

/-! ## C18 Kind predicates -/

/-- The tokens a user can obtain carry one of the kinds of `Kind`; the five kind bits are then that kind's number. -/
def Token.Wf (t : Token) : Prop := t.kindBits = t.kind.bits

theorem mkTok_wf (k : Kind) (a b c : Bool) (l w : BitVec 32) : (mkTok k a b c l w).Wf := by
  simp [Token.Wf]

/-- `PartialEq<Kind>` agrees with `kind()`. -/
theorem C18_eq_kind (t : Token) (h : t.Wf) (k : Kind) : t.isKind k = true ↔ t.kind = k := by
  unfold isKind
  rw [h]
  generalize t.kind = j
  cases j <;> cases k <;> decide

/-- `PartialEq<KindSet>` is membership of the kind. -/
theorem C18_eq_kindset (t : Token) (h : t.Wf) (s : KindSet) : t.inSet s = s.contains t.kind := by
  unfold inSet KindSet.contains
  rw [h]

/-- `is_cdc()` holds exactly for a CdcOrCdo token with the CDC flag; `-->` has it and `<!--` has not. -/
theorem C18_is_cdc (t : Token) (h : t.Wf) : t.isCdc = true ↔ t.kind = .cdcOrCdo ∧ t.thirdBit = true := by
  unfold isCdc
  rw [h]
  generalize t.kind = j
  cases j <;> simp [Kind.bits]

theorem C18_cdc_cdo : CDC.isCdc = true ∧ CDO.isCdc = false := by decide

/-- `is_bad()`: every bad token is reported, but so is every token of the kinds Eof, Whitespace, Comment, CdcOrCdo, Number
and Dimension; it is right exactly on the remaining kinds. -/
theorem C18_is_bad_partial (t : Token) (h : t.Wf)
    (hk : t.kind ∉ [Kind.eof, .whitespace, .comment, .cdcOrCdo, .number, .dimension]) :
    t.isBad = true ↔ t.kind = .badString ∨ t.kind = .badUrl := by
  unfold isBad
  rw [h]
  revert hk
  generalize t.kind = j
  cases j <;> decide

theorem C18_is_bad_exact (t : Token) (h : t.Wf) :
    t.isBad = true ↔ t.kind ∈ [Kind.eof, .whitespace, .comment, .cdcOrCdo, .number, .dimension, .badString, .badUrl] := by
  unfold isBad
  rw [h]
  generalize t.kind = j
  cases j <;> decide

/-- What is missing: a space is "bad". -/
theorem C18_is_bad_counterexample : SPACE.isBad = true ∧ SPACE.kind = .whitespace := by decide

/-- `is_trivia()` is right on every kind but CdcOrCdo. -/
theorem C18_is_trivia_partial (t : Token) (h : t.Wf) (hk : t.kind ≠ .cdcOrCdo) :
    t.isTrivia = true ↔ t.kind = .comment ∨ t.kind = .whitespace ∨ t.kind = .eof := by
  unfold isTrivia
  rw [h]
  revert hk
  generalize t.kind = j
  cases j <;> decide

theorem C18_is_trivia_counterexample : CDC.isTrivia = true ∧ CDC.kind = .cdcOrCdo := by decide

/-- `is_int`, `is_float`, `has_sign` are false outside Number, Dimension, BadString and BadUrl, and on Number and Dimension
`is_int` and `is_float` are complementary. -/
theorem C18_numeric_partial (t : Token) (h : t.Wf) :
    (t.kind ∉ [Kind.number, .dimension, .badString, .badUrl] →
      t.isInt = false ∧ t.isFloat = false ∧ t.hasSign = false)
    ∧ (t.kind = .number ∨ t.kind = .dimension → t.isInt = !t.isFloat) := by
  unfold isInt isFloat Token.hasSign
  rw [h]
  generalize t.kind = j
  generalize t.thirdBit = x
  generalize t.secondBit = y
  cases j <;> cases x <;> cases y <;> decide

/-- What is missing: a bad string counts as an integer. -/
theorem C18_numeric_counterexample : (newBadString 3#32).isInt = true := by decide

/-- `is_ident_like` is Ident, Function, AtKeyword, Hash (documented at token.rs:529) and, in addition, Url. -/
theorem C18_is_ident_like_exact (t : Token) (h : t.Wf) :
    t.isIdentLike = true ↔ t.kind ∈ [Kind.ident, .function, .atKeyword, .hash, .url] := by
  unfold isIdentLike
  rw [h]
  generalize t.kind = j
  cases j <;> decide

/-- `is_delim_like` is Delim and the single-character punctuation kinds. -/
theorem C18_is_delim_like (t : Token) (h : t.Wf) :
    t.isDelimLike = true ↔ t.kind ∈ [Kind.delim, .colon, .semicolon, .comma, .leftSquare, .rightSquare, .leftParen,
      .rightParen, .leftCurly, .rightCurly] := by
  unfold isDelimLike
  rw [h]
  generalize t.kind = j
  cases j <;> decide

-- The hypotheses are met by real tokens.
example : CDC.Wf ∧ SPACE.Wf ∧ (newIdent true false false 3#32).Wf ∧ (newIdent true false false 3#32).kind ≠ .cdcOrCdo := by
  unfold Token.Wf; decide

/-! ## C19 KindSet behaves as a set of kinds -/

theorem kindset_bit_ne (j k : Kind) (h : j ≠ k) : KindSet.bit j.bits &&& KindSet.bit k.bits = 0#32 := by
  revert h; cases j <;> cases k <;> decide

theorem kindset_bit_self (k : Kind) : KindSet.bit k.bits &&& KindSet.bit k.bits ≠ 0#32 := by
  cases k <;> decide

theorem kindset_or_contains (u : BitVec 32) (j k : Kind) :
    (KindSet.mk (u ||| KindSet.bit j.bits)).contains k = ((KindSet.mk u).contains k || decide (k = j)) := by
  simp only [KindSet.contains, KindSet.containsBits]
  have hd : (u ||| KindSet.bit j.bits) &&& KindSet.bit k.bits =
      (u &&& KindSet.bit k.bits) ||| (KindSet.bit j.bits &&& KindSet.bit k.bits) := by
    ext i; simp; grind
  rw [hd]
  by_cases h : k = j
  · subst h
    have := kindset_bit_self k
    have h0 : (u &&& KindSet.bit k.bits ||| KindSet.bit k.bits &&& KindSet.bit k.bits) ≠ 0#32 := by
      intro hc
      rw [BitVec.or_eq_zero_iff] at hc
      exact this hc.2
    simp only [decide_true, Bool.or_true]
    exact bne_iff_ne.mpr h0
  · rw [kindset_bit_ne j k (fun e => h e.symm)]
    simp [h]

/-- `add(k)` adds exactly `k`. -/
theorem C19_add (s : KindSet) (j k : Kind) : (s.add j).contains k = true ↔ s.contains k = true ∨ k = j := by
  rw [KindSet.add, kindset_or_contains]; simp

/-- `KindSet::new(kinds).contains(k)` iff `k` is in `kinds`. -/
theorem C19_new (kinds : List Kind) (k : Kind) : (KindSet.new kinds).contains k = true ↔ k ∈ kinds := by
  have gen : ∀ (ks : List Kind) (u : BitVec 32),
      (KindSet.mk (ks.foldl (fun u k => u ||| KindSet.bit k.bits) u)).contains k = true
        ↔ (KindSet.mk u).contains k = true ∨ k ∈ ks := by
    intro ks
    induction ks with
    | nil => simp
    | cons j js ih => intro u; rw [List.foldl_cons, ih, kindset_or_contains]; simp [or_assoc]
  rw [KindSet.new, gen]
  have : (KindSet.mk 0#32).contains k = false := by simp [KindSet.contains, KindSet.containsBits]
  simp [this]

theorem C19_none (k : Kind) : KindSet.NONE.contains k = false := by cases k <;> decide
theorem C19_any (k : Kind) : KindSet.ANY.contains k = true := by cases k <;> decide

/-- The documented named sets. -/
theorem C19_named (k : Kind) :
    (KindSet.TRIVIA.contains k = true ↔ k = .whitespace ∨ k = .comment)
    ∧ (KindSet.WHITESPACE.contains k = true ↔ k = .whitespace)
    ∧ (KindSet.COMMENTS.contains k = true ↔ k = .comment)
    ∧ (KindSet.RIGHT_CURLY_OR_SEMICOLON.contains k = true ↔ k = .rightCurly ∨ k = .semicolon)
    ∧ (KindSet.LEFT_CURLY_OR_SEMICOLON.contains k = true ↔ k = .leftCurly ∨ k = .semicolon)
    ∧ (KindSet.LEFT_CURLY_RIGHT_PAREN_OR_SEMICOLON.contains k = true
        ↔ k = .leftCurly ∨ k = .rightParen ∨ k = .semicolon)
    ∧ (KindSet.LEFT_CURLY_RIGHT_PAREN_COMMA_OR_SEMICOLON.contains k = true
        ↔ k = .leftCurly ∨ k = .rightParen ∨ k = .comma ∨ k = .semicolon) := by
  cases k <;> decide

/-- Comparing a token with a set is membership of its kind. -/
theorem C19_token (t : Token) (h : t.Wf) (kinds : List Kind) : t.inSet (KindSet.new kinds) = true ↔ t.kind ∈ kinds := by
  rw [C18_eq_kindset t h, C19_new]

example : (KindSet.new [.ident, .comma]).contains .comma = true ∧ (KindSet.new [.ident, .comma]).contains .colon = false := by
  decide

end Hdx
