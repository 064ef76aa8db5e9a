/-
Model of css_lexer/src/syntax/parse_escape.rs, css_lexer/src/cursor.rs, css_lexer/src/span.rs and
css_lexer/src/source_offset.rs.

Offsets are naturals. A subtraction below zero is `Panic.underflow` (what a debug build does; a release build would wrap and
then fail on the slice). `debug_assert!`s are not modelled. The bump allocator is not modelled: a `&str` result is the list of
its characters.
-/
import Verif.Model.Lexer

namespace Hdx

/-- css_lexer/src/syntax/parse_escape.rs:17-25: the `while let Some(v) = c.to_digit(16)` loop; returns `value`, `i`, the
current character `c` and the characters left in the iterator. -/
def parseEscLoop (value i : Nat) (c : Char) (cs : List Char) : Nat × Nat × Char × List Char :=
  match hexVal c with
  | none => (value, i, c, cs)
  | some v =>
    let value := (value <<< 4) ||| v
    if i + 1 > 5 then (value, i + 1, cs.headD REPL, cs.tail)
    else parseEscLoop value (i + 1) (cs.headD REPL) cs.tail
  termination_by 6 - i

/-- `char::from_u32` (Rust std) on a value below 2^32. -/
def charFromNat (n : Nat) : Option Char := if h : n.isValidChar then some (Char.ofNatAux n h) else none

/-- css_lexer/src/syntax/parse_escape.rs:9-41 `parse_escape_sequence`: the character and the number of bytes used.
(`SURROGATE_RANGE` is `0xd800..=0xdfff`, css_lexer/src/syntax/mod.rs:6.) -/
def parseEscape : List Char → Char × Nat
  | [] => (REPL, 0)
  | c :: cs =>
    if !isHexDigit c then (c, c.utf8Size)
    else
      let (value, i, c, cs) := parseEscLoop 0 0 c cs
      let i := if isWhitespace c then (if c == '\r' && cs.head? == some '\n' then i + 2 else i + 1) else i
      if value == 0 || (0xd800 ≤ value && value ≤ 0xdfff) then (REPL, i)
      else ((charFromNat value).getD REPL, i)

/-- css_lexer/src/source_offset.rs:12 `SourceOffset::DUMMY`. -/
def DUMMY : Nat := 4294967295

/-- css_lexer/src/span.rs:10-13 `struct Span`. -/
structure Span where
  start : Nat
  stop : Nat
  deriving DecidableEq, Repr

namespace Span
/-- css_lexer/src/span.rs:52-54 `Span::contains`. -/
def contains (a b : Span) : Bool := a.start ≤ b.start && b.stop ≤ a.stop
/-- css_lexer/src/span.rs:57-59 `Span::is_empty`. -/
def isEmpty (a : Span) : Bool := a.start == a.stop
/-- css_lexer/src/span.rs:62-65 `Span::len`. -/
def len (a : Span) : Except Panic Nat := if a.stop < a.start then .error .underflow else .ok (a.stop - a.start)
/-- css_lexer/src/span.rs:74-81 `Add for Span`. -/
def add (a b : Span) : Span :=
  ⟨if a.start < b.start then a.start else b.start, if a.stop > b.stop then a.stop else b.stop⟩
/-- css_lexer/src/span.rs:101-118: the loop of `line_and_column`; `off` is the `u32` still to go. -/
def lineColLoop (line col off : Nat) : List Char → Except Panic (Nat × Nat)
  | [] => .ok (line, col)
  | c :: cs =>
    if off == 0 then .ok (line, col)
    else if off < c.utf8Size then .error .underflow
    else if c == '\n' then lineColLoop (line + 1) 0 (off - c.utf8Size) cs
    else lineColLoop line (col + 1) (off - c.utf8Size) cs
/-- css_lexer/src/span.rs:101-118 `SpanContents::line_and_column`. -/
def lineAndColumn (a : Span) (source : List Char) : Except Panic (Nat × Nat) := lineColLoop 0 0 a.start source
/-- css_lexer/src/span.rs:121-123 `SpanContents::contents`. -/
def contents (a : Span) (source : List Char) : Except Panic (List Char) :=
  match sliceBytes source a.start a.stop with
  | some s => .ok s
  | none => .error .slice
end Span

/-- `&source[a..b]`, panicking. -/
def slice (source : List Char) (a b : Nat) : Except Panic (List Char) :=
  match sliceBytes source a b with
  | some s => .ok s
  | none => .error .slice

/-- `&source[a..]`, panicking. -/
def sliceFrom (source : List Char) (a : Nat) : Except Panic (List Char) :=
  match dropBytes source a with
  | some s => .ok s
  | none => .error .slice

namespace Cursor

/-- css_lexer/src/cursor.rs:37-42 `end_offset`. -/
def endOffset (c : Cursor) : Nat := if c.offset == DUMMY then c.offset else c.offset + c.token.len.toNat
/-- css_lexer/src/cursor.rs:55-57 `span`. -/
def span (c : Cursor) : Span := ⟨c.offset, c.endOffset⟩
/-- css_lexer/src/cursor.rs:110-113 `str_slice`. -/
def strSlice (c : Cursor) (source : List Char) : Except Panic (List Char) := c.span.contents source

/-- css_lexer/src/cursor.rs:118, 178, 250: `offset + leading_len`. -/
def innerStart (c : Cursor) : Nat := c.offset + c.token.leadingLen.toNat
/-- css_lexer/src/cursor.rs:119, 179, 251: `end_offset - trailing_len`. -/
def innerEnd (c : Cursor) : Except Panic Nat :=
  if c.endOffset < c.token.trailingLen.toNat then .error .underflow else .ok (c.endOffset - c.token.trailingLen.toNat)

/-- `self.token().kind_bits() == Kind::String as u8`. -/
def isString (c : Cursor) : Bool := c.token.kindBits == Kind.string.bits

/-- What the loops of css_lexer/src/cursor.rs do at a backslash, given the characters `cs` of the slice after it and the byte
position `i` of the backslash (the three copies at cursor.rs:142-170, 201-226, 262-286):
`stop` - a string that ends here; `skip` - a line continuation, with the new `i`; `esc` - an escape, with its character (as
`parse_escape_sequence` returns it) and the new `i`. -/
inductive AtBackslash where
  | stop
  | skip (i : Nat)
  | esc (ch : Char) (i : Nat)

/-- See `AtBackslash`. -/
def atBackslash (isString : Bool) (source : List Char) (start i : Nat) (cs : List Char) : Except Panic AtBackslash :=
  let escape : Except Panic AtBackslash :=
    match sliceFrom source (start + (i + 1)) with
    | .error p => .error p
    | .ok r => .ok (.esc (parseEscape r).1 (i + 1 + (parseEscape r).2))
  if isString then
    match cs with
    | [] => .ok .stop
    | d :: ds =>
      if isNewline d then .ok (.skip (if ds.head? == some '\n' then i + 3 else i + 2))
      else escape
  else escape

theorem atBackslash_lt {b : Bool} {source : List Char} {start i j : Nat} {cs : List Char} :
    (atBackslash b source start i cs = .ok (.skip j) → i < j) ∧
    (∀ ch, atBackslash b source start i cs = .ok (.esc ch j) → i < j) := by
  unfold atBackslash
  grind

theorem slice_bound {source r : List Char} {a b : Nat} (h : slice source a b = .ok r) : a ≤ b := by
  unfold slice sliceBytes at h
  grind

theorem slice_length {source r : List Char} {a b : Nat} (h : slice source a b = .ok r) : r.length ≤ b := by
  have htake : ∀ (cs t : List Char) (n : Nat), takeBytes cs n = some t → t.length ≤ n := by
    intro cs
    induction cs with
    | nil => intro t n h; cases n <;> simp [takeBytes] at h; simp [← h]
    | cons c cs ih =>
      intro t n h
      cases n with
      | zero => simp [takeBytes] at h; simp [← h]
      | succ n =>
        simp only [takeBytes] at h
        split at h
        · rename_i hlt
          rw [Option.map_eq_some_iff] at h
          obtain ⟨t', h1, rfl⟩ := h
          have := ih _ _ h1
          have := c.utf8Size_pos
          simp only [List.length_cons]; omega
        · cases h
  unfold slice at h
  split at h
  · rename_i s hs
    simp only [Except.ok.injEq] at h
    subst h
    unfold sliceBytes at hs
    split at hs
    · rename_i hle
      rw [Option.bind_eq_some_iff] at hs
      obtain ⟨x, _, hx⟩ := hs
      have := htake _ _ _ hx
      omega
    · cases hs
  · cases h

theorem measure_char {stop start i j n : Nat} (h : i ≤ j) :
    (stop - (start + j)) * (stop + 1) + n < (stop - (start + i)) * (stop + 1) + (n + 1) := by
  have : (stop - (start + j)) * (stop + 1) ≤ (stop - (start + i)) * (stop + 1) := Nat.mul_le_mul_right _ (by omega)
  omega

theorem measure_slice {source r : List Char} {stop start i j n : Nat} (h : i < j) (hs : slice source (start + j) stop = .ok r) :
    (stop - (start + j)) * (stop + 1) + r.length < (stop - (start + i)) * (stop + 1) + n := by
  have h1 := slice_length hs
  have h2 := slice_bound hs
  have : (stop - (start + j) + 1) * (stop + 1) ≤ (stop - (start + i)) * (stop + 1) := Nat.mul_le_mul_right _ (by omega)
  rw [Nat.add_mul] at this
  omega

/-- css_lexer/src/cursor.rs:187-193, 197-203: `str`, made an owned string if it is not one yet. -/
def ownedStr (source : List Char) (start i : Nat) : Option (List Char) → Except Panic (List Char)
  | some s => .ok s
  | none => if i == 0 then .ok [] else slice source start (start + i)

/-- css_lexer/src/cursor.rs:183-237: the loop of `parse_str`; `str` is the `Option<String>`, `cs` the characters left in
`chars`. At the end the text is `str`, or the slice read so far. -/
def parseLoop (isStr : Bool) (source : List Char) (start stop i : Nat) (str : Option (List Char)) (cs : List Char) :
    Except Panic (List Char) :=
  match cs with
  | [] =>
    match str with
    | some s => .ok s
    | none => slice source start (start + i)
  | c :: cs =>
    if c == EOFc then
      match ownedStr source start i str with
      | .error p => .error p
      | .ok s => parseLoop isStr source start stop (i + 1) (some (s ++ [REPL])) cs
    else if c == '\\' then
      match ownedStr source start i str with
      | .error p => .error p
      | .ok s =>
        match h : atBackslash isStr source start i cs with
        | .error p => .error p
        | .ok .stop => .ok s
        | .ok (.skip j) =>
          match h2 : slice source (start + j) stop with
          | .error p => .error p
          | .ok r => parseLoop isStr source start stop j (some s) r
        | .ok (.esc ch j) =>
          match h2 : slice source (start + j) stop with
          | .error p => .error p
          | .ok r => parseLoop isStr source start stop j (some (s ++ [if ch == EOFc then REPL else ch])) r
    else parseLoop isStr source start stop (i + c.utf8Size) (str.map (· ++ [c])) cs
  termination_by (stop - (start + i)) * (stop + 1) + cs.length
  decreasing_by
    · exact measure_char (by omega)
    · exact measure_slice (atBackslash_lt.1 h) h2
    · exact measure_slice (atBackslash_lt.2 _ h) h2
    · exact measure_char (by omega)

/-- css_lexer/src/cursor.rs:176-243 `parse_str`. -/
def parseStr (c : Cursor) (source : List Char) : Except Panic (List Char) := do
  let stop ← c.innerEnd
  let inner ← slice source c.innerStart stop
  if !c.token.containsEscapeChars then return inner
  else parseLoop c.isString source c.innerStart stop 0 none inner

/-- css_lexer/src/cursor.rs:255-296: the loop of `parse_str_lower`. -/
def lowerLoop (isStr : Bool) (source : List Char) (start stop i : Nat) (str : List Char) (cs : List Char) :
    Except Panic (List Char) :=
  match cs with
  | [] => .ok str
  | c :: cs =>
    if c == EOFc then lowerLoop isStr source start stop (i + 1) (str ++ [REPL]) cs
    else if c == '\\' then
      match h : atBackslash isStr source start i cs with
      | .error p => .error p
      | .ok .stop => .ok str
      | .ok (.skip j) =>
        match h2 : slice source (start + j) stop with
        | .error p => .error p
        | .ok r => lowerLoop isStr source start stop j str r
      | .ok (.esc ch j) =>
        match h2 : slice source (start + j) stop with
        | .error p => .error p
        | .ok r => lowerLoop isStr source start stop j (str ++ [if ch == EOFc then REPL else toAsciiLower ch]) r
    else lowerLoop isStr source start stop (i + c.utf8Size) (str ++ [toAsciiLower c]) cs
  termination_by (stop - (start + i)) * (stop + 1) + cs.length
  decreasing_by
    · exact measure_char (by omega)
    · exact measure_slice (atBackslash_lt.1 h) h2
    · exact measure_slice (atBackslash_lt.2 _ h) h2
    · exact measure_char (by omega)

/-- css_lexer/src/cursor.rs:246-298 `parse_str_lower`. (Its second early return, cursor.rs:252, is unreachable: it repeats
`is_lower_case`, already tested.) -/
def parseStrLower (c : Cursor) (source : List Char) : Except Panic (List Char) :=
  if c.token.isLowerCase then c.parseStr source
  else do
    let stop ← c.innerEnd
    let inner ← slice source c.innerStart stop
    lowerLoop c.isString source c.innerStart stop 0 [] inner

/-- css_lexer/src/cursor.rs:130-173: the loop of `eq_ignore_ascii_case`; `os` is what is left of `other`. -/
def eqLoop (isStr : Bool) (source : List Char) (start stop i : Nat) (os : List Char) (cs : List Char) :
    Except Panic Bool :=
  match cs with
  | [] => .ok os.isEmpty
  | c :: cs =>
    match os with
    | [] => .ok false
    | o :: os =>
      if c == EOFc then
        if REPL != o then .ok false else eqLoop isStr source start stop (i + 1) os cs
      else if c == '\\' then
        match h : atBackslash isStr source start i cs with
        | .error p => .error p
        | .ok .stop => .ok os.isEmpty
        | .ok (.skip j) =>
          match h2 : slice source (start + j) stop with
          | .error p => .error p
          | .ok r => eqLoop isStr source start stop j os r
        | .ok (.esc ch j) =>
          match h2 : slice source (start + j) stop with
          | .error p => .error p
          | .ok r => if (ch == EOFc && REPL != o) || ch != o then .ok false else eqLoop isStr source start stop j os r
      else if c != o then .ok false
      else eqLoop isStr source start stop (i + c.utf8Size) os cs
  termination_by (stop - (start + i)) * (stop + 1) + cs.length
  decreasing_by
    · exact measure_char (by omega)
    · exact measure_slice (atBackslash_lt.1 h) h2
    · exact measure_slice (atBackslash_lt.2 _ h) h2
    · exact measure_char (by omega)

/-- css_lexer/src/cursor.rs:115-174 `eq_ignore_ascii_case`. (`str::eq_ignore_ascii_case` compares the UTF-8 bytes after
lower-casing ASCII letters; on characters that is equality after `toAsciiLower`.) -/
def eqIgnoreAsciiCase (c : Cursor) (source other : List Char) : Except Panic Bool := do
  let stop ← c.innerEnd
  if !c.token.containsEscapeChars then
    if stop < c.innerStart then .error .underflow
    else if stop - c.innerStart != utf8Len other then return false
    else
      let inner ← slice source c.innerStart stop
      if c.token.isLowerCase then return inner == other
      else return inner.map toAsciiLower == other.map toAsciiLower
  else
    let inner ← slice source c.innerStart stop
    eqLoop c.isString source c.innerStart stop 0 other inner

end Cursor

end Hdx
