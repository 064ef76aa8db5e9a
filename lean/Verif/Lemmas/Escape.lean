/-
Helper lemmas: `parse_escape_sequence` in terms of the CSS grammar.
-/
import Verif.Model.Cursor
import Verif.Spec.Decode
import Verif.Lemmas.Eval

namespace Hdx
open Spec

theorem hexVal_eq (c : Char) : hexVal c = hexDigit? c := by
  by_cases h : c.toNat < 128
  · have : ∀ n < 128, hexVal (Char.ofNat n) = hexDigit? (Char.ofNat n) := by decide +kernel
    have := this _ h
    rwa [Char.ofNat_toNat] at this
  · have h1 : hexVal c = none := by
      simp only [hexVal]
      rw [if_neg (by simp; omega), if_neg (by simp; omega), if_neg (by simp; omega)]
    have h2 : ∀ l : List Char, (∀ d ∈ l, d.toNat < 128) → l.idxOf? c = none := by
      intro l hl
      rw [List.idxOf?_eq_none_iff]
      intro hm; exact h (hl c hm)
    rw [h1, hexDigit?, h2 _ (by decide), h2 _ (by decide)]
    rfl

theorem hexDigit_hex (c : Char) : (hexDigit? c).isSome = true ↔ Hex c := by
  rw [← isHexDigit_iff, ← hexVal_eq]
  simp only [hexVal, isHexDigit, isDigit]
  split
  · rename_i h; simp at h; simp [h]
  · rename_i h
    split
    · rename_i h'; simp at h'; simp [h']
    · split
      · rename_i h'; simp at h'; simp [h']
      · rename_i h1 h2; simp at h h1 h2; simp; omega

theorem hexVal_lt {c : Char} {v : Nat} (h : hexVal c = some v) : v < 16 := by
  simp only [hexVal] at h
  split at h
  · rename_i h'; simp at h' h; omega
  · split at h
    · rename_i h'; simp at h' h; omega
    · split at h
      · rename_i h'; simp at h' h; omega
      · cases h

theorem not_hex_headD {cs : List Char} (h : ¬ Starts Hex cs) : hexVal (cs.headD REPL) = none := by
  rw [hexVal_eq, ← Option.not_isSome_iff_eq_none, hexDigit_hex]
  cases cs with
  | nil => rw [← isHexDigit_iff]; decide
  | cons c cs => intro hc; exact h ⟨c, cs, rfl, hc⟩

theorem parseEscLoop_eq (v i : Nat) (d : Char) (ds tail : List Char) (hd : ∀ x ∈ d :: ds, Hex x)
    (hi : i + (ds.length + 1) ≤ 6) (hs : i + (ds.length + 1) = 6 ∨ ¬ Starts Hex tail) :
    parseEscLoop v i d (ds ++ tail) = (hexNumber v (d :: ds), i + (ds.length + 1), tail.headD REPL, tail.tail) := by
  induction ds generalizing v i d with
  | nil =>
    have := (hexDigit_hex d).mpr (hd d (by simp))
    rw [← hexVal_eq] at this
    obtain ⟨w, hw⟩ := Option.isSome_iff_exists.mp this
    have hlt := hexVal_lt hw
    have hor : v <<< 4 ||| w = 16 * v + w := by
      rw [← Nat.shiftLeft_add_eq_or_of_lt (by simpa using hlt), Nat.shiftLeft_eq]; omega
    rw [parseEscLoop]
    simp only [hw, List.nil_append, hor]
    have hn : hexNumber v [d] = 16 * v + w := by simp [hexNumber, ← hexVal_eq, hw]
    split
    · simp [hn]
    · rename_i h6
      have ht : ¬ Starts Hex tail := by
        rcases hs with h | h
        · simp at h; omega
        · exact h
      rw [parseEscLoop, not_hex_headD ht]
      simp [hn]
  | cons e ds ih =>
    have := (hexDigit_hex d).mpr (hd d (by simp))
    rw [← hexVal_eq] at this
    obtain ⟨w, hw⟩ := Option.isSome_iff_exists.mp this
    have hlt := hexVal_lt hw
    have hor : v <<< 4 ||| w = 16 * v + w := by
      rw [← Nat.shiftLeft_add_eq_or_of_lt (by simpa using hlt), Nat.shiftLeft_eq]; omega
    rw [parseEscLoop]
    simp only [List.length_cons] at hi hs
    simp only [hw, hor, List.cons_append, List.headD_cons, List.tail_cons]
    rw [if_neg (by omega), ih (16 * v + w) (i + 1) e (fun x hx => hd x (List.mem_cons_of_mem _ hx)) (by omega) (by
      rcases hs with h | h
      · left; omega
      · right; exact h)]
    have hn : hexNumber v (d :: e :: ds) = hexNumber (16 * v + w) (e :: ds) := by
      rw [hexNumber, ← hexVal_eq, hw]
    rw [hn]
    simp only [List.length_cons, Prod.mk.injEq, and_true, true_and]
    omega

theorem hexNumber_append {ds tail : List Char} (h : ∀ d ∈ ds, Hex d) (ht : ¬ Starts Hex tail) (v : Nat) :
    hexNumber v (ds ++ tail) = hexNumber v ds := by
  induction ds generalizing v with
  | nil =>
    cases tail with
    | nil => rfl
    | cons c cs =>
      have : hexDigit? c = none := by
        rw [← Option.not_isSome_iff_eq_none, hexDigit_hex]
        intro hc; exact ht ⟨c, cs, rfl, hc⟩
      simp [hexNumber, this]
  | cons d ds ih =>
    obtain ⟨w, hw⟩ := Option.isSome_iff_exists.mp ((hexDigit_hex d).mpr (h d (by simp)))
    simp [hexNumber, hw, ih (fun x hx => h x (List.mem_cons_of_mem _ hx))]

theorem ws_not_hex {c : Char} (h : Ws c) : ¬ Hex c := by
  rw [← isHexDigit_iff]
  rcases h with rfl | rfl | rfl | rfl | rfl <;> decide

theorem escWs_not_hex {ws rest : List Char} (h : EscWs ws rest) : ¬ Starts Hex ws := by
  rintro ⟨c, r, e, hc⟩
  cases h with
  | none => simp at e
  | crlf => simp at e; rw [← e.1] at hc; exact ws_not_hex (Or.inr (Or.inr (Or.inr (Or.inl rfl)))) hc
  | one h1 => simp at e; rw [e.1] at h1; exact ws_not_hex h1 hc

theorem codePoint_eq (n : Nat) :
    (if n == 0 || (0xd800 ≤ n && n ≤ 0xdfff) then REPL else (charFromNat n).getD REPL) = codePoint n := by
  unfold codePoint charFromNat
  by_cases h : n = 0 ∨ (0xD800 ≤ n ∧ n ≤ 0xDFFF)
  · rw [if_pos (by simpa using h), if_pos (by omega)]; rfl
  · rw [if_neg (by simpa using h)]
    by_cases h2 : 0x10FFFF < n
    · have : ¬ n.isValidChar := by
        simp only [Nat.isValidChar]; omega
      rw [if_pos (by omega), dif_neg this]; rfl
    · have : n.isValidChar := by
        simp only [Nat.isValidChar]; omega
      rw [if_neg (by omega), dif_pos this]
      simp [Char.ofNat, this]

/-- The character an escape decodes to, before NUL is replaced. -/
def rawEscaped : List Char → Char
  | [] => REPL
  | c :: r => if (hexDigit? c).isSome then codePoint (hexNumber 0 (c :: r)) else c

/-- `parse_escape_sequence` reads exactly the escape. -/
theorem parseEscape_eq {e rest : List Char} (h : EscTail e rest) :
    parseEscape (e ++ rest) = (rawEscaped e, utf8Len e) := by
  cases h with
  | eof => rfl
  | @plain c rest h1 h2 =>
    have : isHexDigit c = false := by rw [Bool.eq_false_iff, ne_eq, isHexDigit_iff]; exact h1
    have h3 : (hexDigit? c).isSome = false := by rw [Bool.eq_false_iff, ne_eq, hexDigit_hex]; exact h1
    simp [parseEscape, this, rawEscaped, h3]
  | @hex ds ws rest h1 h2 h3 h4 h5 =>
    match ds, h1 with
    | d :: ds, _ =>
    have hd : isHexDigit d = true := (isHexDigit_iff d).mpr (h3 d (by simp))
    have hl := parseEscLoop_eq 0 0 d ds (ws ++ rest) h3 (by simp at h2; omega) (by simpa using h4)
    have hlen : utf8Len (d :: ds) = ds.length + 1 :=
      utf8Len_of_ascii (fun c hc => hex_ascii (h3 c hc))
    have hval : rawEscaped (d :: ds ++ ws) = codePoint (hexNumber 0 (d :: ds)) := by
      have := (hexDigit_hex d).mpr (h3 d (by simp))
      simp only [List.cons_append, rawEscaped, this, if_true]
      rw [← List.cons_append, hexNumber_append h3 (escWs_not_hex h5)]
    rw [hval, List.append_assoc]
    simp only [List.cons_append, parseEscape, hd, Bool.not_true, Bool.false_eq_true, if_false, hl, Nat.zero_add]
    rw [← codePoint_eq, show d :: (ds ++ ws) = (d :: ds) ++ ws from rfl, utf8Len_append, hlen]
    have hi : (if isWhitespace ((ws ++ rest).headD REPL) = true then
        if ((ws ++ rest).headD REPL == '\r' && (ws ++ rest).tail.head? == some '\n') = true then ds.length + 1 + 2
        else ds.length + 1 + 1
      else ds.length + 1) = ds.length + 1 + utf8Len ws := by
      cases h5 with
      | none hn =>
        rw [if_neg]
        · simp
        · rw [isWhitespace_iff]
          cases rest with
          | nil => rw [← isWhitespace_iff]; decide
          | cons c cs => intro hw; exact hn ⟨c, cs, rfl, hw⟩
      | crlf => rfl
      | @one c rest hw hc =>
        have hsz := utf8Size_isAscii (isWhitespace_ascii ((isWhitespace_iff c).mpr hw))
        show (if isWhitespace c = true then if (c == '\r' && rest.head? == some '\n') = true then ds.length + 1 + 2
          else ds.length + 1 + 1 else ds.length + 1) = _
        rw [if_pos ((isWhitespace_iff c).mpr hw), if_neg]
        · simp [hsz]
        · intro hh
          simp only [Bool.and_eq_true, beq_iff_eq] at hh
          apply hc
          refine ⟨hh.1, ?_⟩
          cases rest with
          | nil => simp at hh
          | cons a b => simp at hh; exact ⟨a, b, rfl, hh.2⟩
    rw [hi]
    split <;> rfl

theorem rawEscaped_value (e : List Char) : (if rawEscaped e == EOFc then REPL else rawEscaped e) = escapedChar e := by
  cases e with
  | nil => rfl
  | cons c r =>
    simp only [rawEscaped, escapedChar]
    split
    · have : codePoint (hexNumber 0 (c :: r)) ≠ EOFc := by
        unfold codePoint
        split
        · decide
        · rename_i h
          intro he
          have hv : (hexNumber 0 (c :: r)).isValidChar := by simp only [Nat.isValidChar]; omega
          have := congrArg Char.toNat he
          rw [toNat_ofNat_valid hv] at this
          simp [EOFc] at this
          omega
      rw [if_neg (by simpa using this)]
    · simp only [sourceChar, beq_iff_eq]; rfl

end Hdx
