/-
Selectors: css_parse/src/traits/selectors.rs, css_parse/src/macros/{pseudo_class,pseudo_element}.rs and css_ast/src/selector.

As in Model/Grammar, recursion and loops carry a fuel counter and stop with `Panic.diverges` when it is used up.
-/
import Verif.Model.SelectorNames

namespace Hdx
open Prog

/-- css_parse/src/parser.rs:161-164 `parse_str`. -/
def Prog.str (c : Cursor) : Prog (List Char) := ask fun p => c.parseStr p.lexer.source

/-! ### Tags -/

/-- css_ast/src/selector/tag.rs:10-18 `Tag`, without the cursor. The variant of a keyword set is told by its key. -/
inductive TagKind where
  | html (name : List Char)
  | htmlNonConforming (name : List Char)
  | htmlNonStandard (name : List Char)
  | svg (name : List Char)
  | mathml (name : List Char)
  | customElement
  | unknown
  deriving DecidableEq, Repr

/-- css_ast/src/selector/tag.rs:87-98 `CustomElementTag::INVALID`. -/
def NOT_CUSTOM_ELEMENTS : List (List Char) := [c!"annotation-xml", c!"color-profile", c!"font-face", c!"font-face-src", c!"font-face-uri",
  c!"font-face-format", c!"font-face-name", c!"missing-glyph"]

/-- css_ast/src/selector/tag.rs:116-134: the characters other than `-`, by their code points. -/
def isCustomElementChar (c : Char) : Bool :=
  let n := c.toNat
  c == '.' || c == '_' || (48 ≤ n && n ≤ 57) || (97 ≤ n && n ≤ 122) || n == 0xb7 || (0xc0 ≤ n && n ≤ 0xd6) || (0xd8 ≤ n && n ≤ 0xf6)
    || (0xf8 ≤ n && n ≤ 0x37d) || (0x37f ≤ n && n ≤ 0x1fff) || (0x200c ≤ n && n ≤ 0x200d) || (0x203f ≤ n && n ≤ 0x2040)
    || (0x2070 ≤ n && n ≤ 0x218f) || (0x2c00 ≤ n && n ≤ 0x2fef) || (0x3001 ≤ n && n ≤ 0xd7ff) || (0xf900 ≤ n && n ≤ 0xfdcf)
    || (0xfdf0 ≤ n && n ≤ 0xfffd) || (0x10000 ≤ n && n ≤ 0xeffff)

/-- css_ast/src/selector/tag.rs:111-138: the loop of `Peek for CustomElementTag` over the characters after the first one. -/
def customElementLoop (hasDash : Bool) : List Char → Bool
  | [] => hasDash
  | c :: cs => if c == '-' then customElementLoop true cs else if isCustomElementChar c then customElementLoop hasDash cs else false

/-- css_ast/src/selector/tag.rs:100-140 `Peek for CustomElementTag`, on the lower-cased text of the cursor. -/
def isCustomElementName (s : List Char) : Bool :=
  if NOT_CUSTOM_ELEMENTS.contains s then false
  else
    match s with
    | [] => false
    | c :: cs => if !(97 ≤ c.toNat && c.toNat ≤ 122) then false else customElementLoop false cs

/-- css_ast/src/selector/tag.rs:26-45 `Build for Tag`, css_parse/src/token_macros.rs:417-432 for the keyword sets. -/
def buildTag (c : Cursor) : Prog (TagKind × Cursor) := do
  if ← isKeyword HTML_TAGS c then do
    let k ← buildKeyword HTML_TAGS c
    pure (.html k.1, k.2)
  else if ← isKeyword SVG_TAGS c then do
    let k ← buildKeyword SVG_TAGS c
    pure (.svg k.1, k.2)
  else if ← isKeyword MATHML_TAGS c then do
    let k ← buildKeyword MATHML_TAGS c
    pure (.mathml k.1, k.2)
  else do
    let s ← Prog.strLower c
    if isCustomElementName s then pure (.customElement, c)
    else if ← isKeyword HTML_NON_CONFORMING_TAGS c then do
      let k ← buildKeyword HTML_NON_CONFORMING_TAGS c
      pure (.htmlNonConforming k.1, k.2)
    else if ← isKeyword HTML_NON_STANDARD_TAGS c then do
      let k ← buildKeyword HTML_NON_STANDARD_TAGS c
      pure (.htmlNonStandard k.1, k.2)
    else pure (.unknown, c)

/-! ### Combinators, classes, attributes, namespaces -/

/-- css_ast/src/selector/combinator.rs:10-17 `Combinator`. -/
inductive Combinator where
  | child (c : Cursor)
  | nextSibling (c : Cursor)
  | subsequentSibling (c : Cursor)
  | column (c1 c2 : Cursor)
  | nesting (c : Cursor)
  | descendant (c : Cursor)
  deriving DecidableEq, Repr

/-- css_ast/src/selector/combinator.rs:41-52 `ToCursors for Combinator`. -/
def Combinator.cursors : Combinator → List Cursor
  | .child c => [c]
  | .nextSibling c => [c]
  | .subsequentSibling c => [c]
  | .column c1 c2 => [c1, c2]
  | .nesting c => [c]
  | .descendant c => [c]

/-- css_ast/src/selector/combinator.rs:19-39 `Parse for Combinator`. (The code peeks anew for every alternative; peeking does not
change the parser.) -/
def combinator : Prog Combinator := do
  let c ← peek
  if c.token.isKind .delim && c.token.isChar '>' then do
    let c ← tok (isDelim '>')
    pure (.child c)
  else if c.token.isKind .delim && c.token.isChar '+' then do
    let c ← tok (isDelim '+')
    pure (.nextSibling c)
  else if c.token.isKind .delim && c.token.isChar '~' then do
    let c ← tok (isDelim '~')
    pure (.subsequentSibling c)
  else if c.token.isKind .delim && c.token.isChar '&' then do
    let c ← tok (isDelim '&')
    pure (.nesting c)
  else if ← isDoubleDelim '|' '|' c then do
    let cs ← doubleDelim '|' '|'
    pure (.column cs.1 cs.2)
  else do
    let c ← whitespace
    pure (.descendant c)

/-- css_ast/src/selector/namespace.rs:70-76 `NamespacePrefix`. -/
inductive NamespacePrefix where
  | none (pipe : Cursor)
  | name (ident pipe : Cursor)
  | wildcard (star pipe : Cursor)
  deriving DecidableEq, Repr

/-- css_ast/src/selector/namespace.rs:101-117 `ToCursors for NamespacePrefix`. -/
def NamespacePrefix.cursors : NamespacePrefix → List Cursor
  | .none p => [p]
  | .name i p => [i, p]
  | .wildcard s p => [s, p]

/-- css_ast/src/selector/namespace.rs:85-88, 92-95: a `|` that must follow at once. -/
def adjacentPipe : Prog Cursor :=
  setSkip KindSet.NONE fun skip => do
    let pipe ← result (tok (isDelim '|'))
    setSkip skip fun _ => ofResult pipe

/-- css_ast/src/selector/namespace.rs:78-99 `Parse for NamespacePrefix`. -/
def namespacePrefix : Prog NamespacePrefix := do
  let c ← peek
  if c.token.isKind .delim && c.token.isChar '|' then do
    let pipe ← tok (isDelim '|')
    pure (.none pipe)
  else if c.token.isKind .delim && c.token.isChar '*' then do
    let star ← tok (isDelim '*')
    let pipe ← adjacentPipe
    pure (.wildcard star pipe)
  else do
    let ident ← tok (isKind .ident)
    let pipe ← adjacentPipe
    pure (.name ident pipe)

/-- css_ast/src/selector/namespace.rs:129-150 `NamespaceTag`: `Peek`. -/
def isNamespaceTag (c : Cursor) : Prog Bool := pure ((c.token.isKind .delim && c.token.isChar '*') || c.token.isKind .ident)

/-- css_ast/src/selector/namespace.rs:129-150 `NamespaceTag`: `Parse` (css_parse/src/traits/parse.rs:27-40) and `Build`. No tag stands
for the wildcard. -/
def namespaceTag : Prog (Option TagKind × Cursor) := do
  let c ← tok isNamespaceTag
  if c.token.isKind .delim && c.token.isChar '*' then pure (none, c)
  else do
    let t ← buildTag c
    pure (some t.1, t.2)

/-- css_ast/src/selector/namespace.rs:13-16 `Namespace`. -/
structure Namespace where
  pre : Option NamespacePrefix
  tag : Option TagKind
  cursor : Cursor
  deriving DecidableEq, Repr

/-- css_ast/src/selector/namespace.rs:45-52 `ToCursors for Namespace`. -/
def Namespace.cursors (n : Namespace) : List Cursor := (n.pre.map NamespacePrefix.cursors).getD [] ++ [n.cursor]

/-- css_ast/src/selector/namespace.rs:18-43 `Parse for Namespace`. The last alternative neither keeps the identifier nor puts back
what is skipped. -/
def namespaceSelector : Prog Namespace := do
  let c ← peek
  if ← isDoubleDelim '*' '|' c then do
    let pre ← namespacePrefix
    let tag ← namespaceTag
    pure ⟨some pre, tag.1, tag.2⟩
  else if c.token.isKind .delim && c.token.isChar '|' then do
    let pre ← namespacePrefix
    let tag ← namespaceTag
    pure ⟨some pre, tag.1, tag.2⟩
  else do
    let ident ← tok (isKind .ident)
    setSkip KindSet.NONE fun skip => do
      let c ← peek
      let eq ← isDoubleDelim '|' '=' c
      if (c.token.isKind .delim && c.token.isChar '|') && !eq then do
        let pipe ← result (tok (isDelim '|'))
        let tag ← result namespaceTag
        setSkip skip fun _ => do
          let pipe ← ofResult pipe
          let tag ← ofResult tag
          pure ⟨some (.name ident pipe), tag.1, tag.2⟩
      else do
        let tag ← namespaceTag
        pure ⟨none, tag.1, tag.2⟩

/-- css_ast/src/selector/attribute.rs:76-83 `AttributeOperator`. -/
inductive AttributeOperator where
  | exact (c : Cursor)
  | spaceList (c1 c2 : Cursor)
  | langPrefix (c1 c2 : Cursor)
  | startsWith (c1 c2 : Cursor)
  | endsWith (c1 c2 : Cursor)
  | contains (c1 c2 : Cursor)
  deriving DecidableEq, Repr

/-- css_ast/src/selector/attribute.rs:115-126 `ToCursors for AttributeOperator`. -/
def AttributeOperator.cursors : AttributeOperator → List Cursor
  | .exact c => [c]
  | .spaceList a b => [a, b]
  | .langPrefix a b => [a, b]
  | .startsWith a b => [a, b]
  | .endsWith a b => [a, b]
  | .contains a b => [a, b]

/-- css_ast/src/selector/attribute.rs:85-94 `Peek for AttributeOperator`. -/
def isAttributeOperator (c : Cursor) : Prog Bool := do
  if c.token.isKind .delim && c.token.isChar '=' then pure true
  else if ← isDoubleDelim '~' '=' c then pure true
  else if ← isDoubleDelim '|' '=' c then pure true
  else if ← isDoubleDelim '^' '=' c then pure true
  else if ← isDoubleDelim '$' '=' c then pure true
  else isDoubleDelim '*' '=' c

/-- css_ast/src/selector/attribute.rs:96-113 `Parse for AttributeOperator`. -/
def attributeOperator : Prog AttributeOperator := do
  let c ← peekN 1
  if c.token.isKind .delim && c.token.isChar '=' then do
    let c ← tok (isDelim '=')
    pure (.exact c)
  else if ← isDoubleDelim '~' '=' c then do
    let x ← doubleDelim '~' '='
    pure (.spaceList x.1 x.2)
  else if ← isDoubleDelim '|' '=' c then do
    let x ← doubleDelim '|' '='
    pure (.langPrefix x.1 x.2)
  else if ← isDoubleDelim '^' '=' c then do
    let x ← doubleDelim '^' '='
    pure (.startsWith x.1 x.2)
  else if ← isDoubleDelim '$' '=' c then do
    let x ← doubleDelim '$' '='
    pure (.endsWith x.1 x.2)
  else do
    let x ← doubleDelim '*' '='
    pure (.contains x.1 x.2)

/-- css_ast/src/selector/attribute.rs:135-139 `Peek for AttributeValue`. (`Build`, 141-149, keeps the cursor; its kind tells the
variant.) -/
def isAttributeValue (c : Cursor) : Prog Bool := pure (c.token.isKind .ident || c.token.isKind .string)

/-- css_ast/src/selector/attribute.rs:167-171 `Peek for AttributeModifier`. -/
def isAttributeModifier (c : Cursor) : Prog Bool :=
  if c.token.isKind .ident then do
    let s ← Prog.str c
    pure (s == ['i'] || s == ['s'] || s == ['I'] || s == ['S'])
  else pure false

/-- css_ast/src/selector/attribute.rs:160-181 `AttributeModifier`: `Parse` and `Build`. -/
def attributeModifier : Prog (Bool × Cursor) := do
  let c ← tok isAttributeModifier
  let s ← Prog.str c
  pure (s == ['s'] || s == ['S'], c)

/-- css_ast/src/selector/attribute.rs:12-20 `Attribute`; `modifier` is true for `Sensitive`. -/
structure Attribute where
  opening : Cursor
  pre : Option NamespacePrefix
  name : Cursor
  operator : Option AttributeOperator
  value : Option Cursor
  modifier : Option (Bool × Cursor)
  close : Option Cursor
  deriving DecidableEq, Repr

/-- css_ast/src/selector/attribute.rs:46-66 `ToCursors for Attribute`. -/
def Attribute.cursors (a : Attribute) : List Cursor :=
  a.opening :: ((a.pre.map NamespacePrefix.cursors).getD [] ++ (a.name :: ((a.operator.map AttributeOperator.cursors).getD []
    ++ (a.value.toList ++ ((a.modifier.map (·.2)).toList ++ a.close.toList)))))

/-- css_ast/src/selector/attribute.rs:37-42: from the operator on. -/
def attributeRest (opening : Cursor) (pre : Option NamespacePrefix) (name : Cursor) : Prog Attribute := do
  let operator ← ifPeek isAttributeOperator attributeOperator
  match operator with
  | none => do
    let close ← ifPeek (isKind .rightSquare) (tok (isKind .rightSquare))
    pure ⟨opening, pre, name, none, none, none, close⟩
  | some o => do
    let value ← tok isAttributeValue
    let modifier ← ifPeek isAttributeModifier attributeModifier
    let close ← ifPeek (isKind .rightSquare) (tok (isKind .rightSquare))
    pure ⟨opening, pre, name, some o, some value, modifier, close⟩

/-- css_ast/src/selector/attribute.rs:27-36: after the identifier, when there was no prefix before it. -/
def attributeName (opening name : Cursor) : Prog Attribute :=
  setSkip KindSet.NONE fun skip => do
    let c ← peek
    let eq ← isDoubleDelim '|' '=' c
    if (c.token.isKind .delim && c.token.isChar '|') && !eq then do
      let pipe ← result (tok (isDelim '|'))
      let ident ← result (tok (isKind .ident))
      setSkip skip fun _ => do
        let pipe ← ofResult pipe
        let ident ← ofResult ident
        setSkip skip fun _ => attributeRest opening (some (.name name pipe)) ident
    else setSkip skip fun _ => attributeRest opening none name

/-- css_ast/src/selector/attribute.rs:22-44 `Parse for Attribute`. (With a prefix, 27 and 36 set what is skipped and put it back.) -/
def attributeSelector : Prog Attribute := do
  let opening ← tok (isKind .leftSquare)
  let c ← peek
  if ← isDoubleDelim '*' '|' c then do
    let pre ← namespacePrefix
    let name ← tok (isKind .ident)
    setSkip KindSet.NONE fun skip => setSkip skip fun _ => attributeRest opening (some pre) name
  else do
    let name ← tok (isKind .ident)
    attributeName opening name

/-! ### Pseudo-classes and pseudo-elements -/

/-- css_parse/src/token_macros.rs:1221-1229 `Parse for ColonColon`. -/
def colonColon : Prog (Cursor × Cursor) := do
  let first ← tok (isKind .colon)
  setSkip KindSet.NONE fun skip => do
    let second ← result (tok (isKind .colon))
    setSkip skip fun _ => do
      let second ← ofResult second
      pure (first, second)

/-- css_parse/src/macros/pseudo_class.rs:59-66, pseudo_element.rs:58-65: an identifier that follows at once and is one of `names`. -/
def adjacentName (names : List (List Char)) : Prog (List Char × Cursor) :=
  setSkip KindSet.NONE fun skip => do
    let ident ← result (tok (isKind .ident))
    setSkip skip fun _ => do
      let ident ← ofResult ident
      let s ← Prog.strLower ident
      if names.contains s then pure (s, ident)
      else do
        let _ ← Prog.str ident
        fail .unexpectedIdent ident

/-- css_parse/src/macros/pseudo_class.rs:55-70: `Parse` of a `pseudo_class!` with the keys `names`. -/
def pseudoClassOf (names : List (List Char)) : Prog (List Char × Cursor × Cursor) := do
  let colon ← tok (isKind .colon)
  let name ← adjacentName names
  pure (name.1, colon, name.2)

/-- css_parse/src/macros/pseudo_class.rs:48-53: `Peek` of a `pseudo_class!`. -/
def isPseudoClassOf (names : List (List Char)) (c : Cursor) : Prog Bool := do
  let c2 ← peekN 2
  if c.token.isKind .colon && c2.token.isKind .ident then do
    let s ← Prog.strLower c2
    pure (names.contains s)
  else pure false

/-- css_parse/src/macros/pseudo_element.rs:54-69: `Parse` of a `pseudo_element!` with the keys `names`. -/
def pseudoElementOf (names : List (List Char)) : Prog (List Char × (Cursor × Cursor) × Cursor) := do
  let colons ← colonColon
  let name ← adjacentName names
  pure (name.1, colons, name.2)

/-- Which set of names a pseudo-class or pseudo-element is from. -/
inductive Vendor where
  | standard | webkit | moz | ms | o
  deriving DecidableEq, Repr

/-- css_ast/src/selector/pseudo_class.rs:105-117, pseudo_element.rs:73-85: the sets of names are tried one after the other. -/
def tryVendors {α : Type} (parse : Vendor → Prog α) (otherwise : Prog (Vendor × α)) : List Vendor → Prog (Vendor × α)
  | [] => otherwise
  | v :: vs => do
    match ← result (tryParse (parse v)) with
    | .ok a => pure (v, a)
    | .error _ => tryVendors parse otherwise vs

/-- The pseudo-classes of a vendor: css_ast/src/selector/{pseudo_class,webkit,moz,ms,o}.rs. -/
def pseudoClassNames : Vendor → List (List Char)
  | .standard => PSEUDO_CLASSES
  | .webkit => WEBKIT_PSEUDO_CLASSES
  | .moz => MOZ_PSEUDO_CLASSES
  | .ms => MS_PSEUDO_CLASSES
  | .o => O_PSEUDO_CLASSES

/-- The pseudo-elements of a vendor: css_ast/src/selector/{pseudo_element,webkit,moz,ms,o}.rs. -/
def pseudoElementNames : Vendor → List (List Char)
  | .standard => PSEUDO_ELEMENTS
  | .webkit => WEBKIT_PSEUDO_ELEMENTS
  | .moz => MOZ_PSEUDO_ELEMENTS
  | .ms => MS_PSEUDO_ELEMENTS
  | .o => O_PSEUDO_ELEMENTS

/-- `Err(diagnostics::X(p.parse_str(c).into(), c.into()))?` -/
def failReading {α : Type} (c : Cursor) : Prog α := do
  let _ ← Prog.str c
  fail .other c

/-- css_ast/src/selector/pseudo_class.rs:94-124 `Parse for PseudoClass`. -/
def pseudoClass : Prog (Vendor × List Char × Cursor × Cursor) :=
  attempt (pseudoClassOf PSEUDO_CLASSES) (fun r => r.toBool) fun r =>
    match r with
    | .ok a => pure (.standard, a)
    | .error _ => do
      let c ← peekN 2
      tryVendors (fun v => pseudoClassOf (pseudoClassNames v)) (failReading c) [.webkit, .moz, .ms, .o]

/-- css_ast/src/selector/pseudo_element.rs:61-64: both parts are read before either is looked at. -/
def pseudoElementParts : Prog (Except Diag (Cursor × Cursor) × Except Diag (List Char × Cursor)) :=
  setSkip KindSet.NONE fun skip => do
    let colons ← result colonColon
    let name ← result (keyword PSEUDO_ELEMENTS)
    setSkip skip fun _ => pure (colons, name)

/-- css_ast/src/selector/pseudo_element.rs:65-71: `p.rewind(checkpoint)` is reached when there are colons, but no name. -/
def keepsPseudoElement : Except Diag (Except Diag (Cursor × Cursor) × Except Diag (List Char × Cursor)) → Bool
  | .ok (.ok _, .error _) => false
  | _ => true

/-- css_ast/src/selector/pseudo_element.rs:58-92 `Parse for PseudoElement`. -/
def pseudoElement : Prog (Vendor × List Char × (Cursor × Cursor) × Cursor) :=
  attempt pseudoElementParts keepsPseudoElement fun r => do
    let parts ← ofResult r
    let colons ← ofResult parts.1
    match parts.2 with
    | .ok name => pure (.standard, name.1, colons, name.2)
    | .error _ => do
      let c ← peekN 2
      tryVendors (fun v => pseudoElementOf (pseudoElementNames v)) (failReading c) [.webkit, .moz, .ms, .o]

/-! ### Selectors -/

/-- css_ast/src/selector/mod.rs:155-168 `SelectorComponent`, functional_pseudo_class.rs:31-44, functional_pseudo_element.rs:13-20. A
selector list (mod.rs:44) is a list of compound selectors (mod.rs:76) with their commas. The constructors `fn...` are the
variants of `FunctionalPseudoClass`, by the type of their value; `name` tells which one it is. -/
inductive Sel where
  | id (c : Cursor)
  | cls (dot name : Cursor)
  | tag (kind : TagKind) (c : Cursor)
  | wildcard (c : Cursor)
  | combinator (c : Combinator)
  | attr (a : Attribute)
  | pseudoClass (vendor : Vendor) (name : List Char) (colon ident : Cursor)
  | pseudoElement (vendor : Vendor) (name : List Char) (colon1 colon2 ident : Cursor)
  | legacyPseudoElement (name : List Char) (colon ident : Cursor)
  | ns (n : Namespace)
  | fnToken (name : List Char) (colon function value : Cursor) (close : Option Cursor)
  | fnSelectors (name : List Char) (colon function : Cursor) (value : List (List Sel × Option Cursor)) (close : Option Cursor)
  | fnLang (colon function : Cursor) (value : List (Cursor × Option Cursor)) (close : Option Cursor)
  | fnNth (name : List Char) (colon function : Cursor) (value : Nth) (close : Option Cursor)
  | highlight (colon1 colon2 function value : Cursor) (close : Option Cursor)
  | part (colon1 colon2 function : Cursor) (value : List Cursor) (close : Option Cursor)
  | slotted (colon1 colon2 function : Cursor) (value : List Sel) (close : Option Cursor)
  deriving Repr

/-- css_ast/src/selector/functional_pseudo_class.rs:235-241 `ToCursors for LangValues`, 268-284 `ToCursors for LangValue`. -/
def langCursors : List (Cursor × Option Cursor) → List Cursor
  | [] => []
  | (v, comma) :: vs => v :: (comma.toList ++ langCursors vs)

mutual
/-- css_ast/src/selector/mod.rs:176-193 `ToCursors for SelectorComponent` and the `ToCursors` of its parts. -/
def Sel.cursors : Sel → List Cursor
  | .id c => [c]
  | .cls dot name => [dot, name]
  | .tag _ c => [c]
  | .wildcard c => [c]
  | .combinator c => c.cursors
  | .attr a => a.cursors
  | .pseudoClass _ _ colon ident => [colon, ident]
  | .pseudoElement _ _ c1 c2 ident => [c1, c2, ident]
  | .legacyPseudoElement _ colon ident => [colon, ident]
  | .ns n => n.cursors
  | .fnToken _ colon function value close => colon :: function :: value :: close.toList
  | .fnSelectors _ colon function value close => colon :: function :: (Sel.listCursors value ++ close.toList)
  | .fnLang colon function value close => colon :: function :: (langCursors value ++ close.toList)
  | .fnNth _ colon function value close => colon :: function :: (value.cursors ++ close.toList)
  | .highlight c1 c2 function value close => c1 :: c2 :: function :: value :: close.toList
  | .part c1 c2 function value close => c1 :: c2 :: function :: (value ++ close.toList)
  | .slotted c1 c2 function value close => c1 :: c2 :: function :: (Sel.compoundCursors value ++ close.toList)
/-- css_ast/src/selector/mod.rs:88-94 `ToCursors for CompoundSelector`. -/
def Sel.compoundCursors : List Sel → List Cursor
  | [] => []
  | s :: ss => s.cursors ++ Sel.compoundCursors ss
/-- css_ast/src/selector/mod.rs:56-65 `ToCursors for SelectorList`. -/
def Sel.listCursors : List (List Sel × Option Cursor) → List Cursor
  | [] => []
  | (s, comma) :: ss => Sel.compoundCursors s ++ (comma.toList ++ Sel.listCursors ss)
end

/-- css_parse/src/token_macros.rs:525-529: `Peek` of a `function_set!`. -/
def isFunctionOf (names : List (List Char)) (c : Cursor) : Prog Bool :=
  if c.token.isKind .function then do
    let s ← Prog.strLower c
    pure (names.contains s)
  else pure false

/-- css_parse/src/token_macros.rs:530-537: `Parse` and `Build` of a `function_set!`. -/
def functionOf (names : List (List Char)) : Prog (List Char × Cursor) := do
  let c ← tok (isFunctionOf names)
  buildKeyword names c

/-- An optional closing parenthesis: `p.parse_if_peek::<T![')']>()?`. -/
def optionalClose : Prog (Option Cursor) := ifPeek (isKind .rightParen) (tok (isKind .rightParen))

/-- css_ast/src/selector/functional_pseudo_class.rs:254-266 `Parse for LangValue`. -/
def langValue : Prog (Cursor × Option Cursor) := do
  let c ← peek
  if c.token.isKind .ident then do
    let v ← tok (isKind .ident)
    let comma ← ifPeek (isKind .comma) (tok (isKind .comma))
    pure (v, comma)
  else do
    let v ← tok (isKind .string)
    let comma ← ifPeek (isKind .comma) (tok (isKind .comma))
    pure (v, comma)

/-- css_ast/src/selector/functional_pseudo_class.rs:222-233 `Parse for LangValues`. -/
def langValues : Nat → List (Cursor × Option Cursor) → Prog (List (Cursor × Option Cursor))
  | 0, _ => .panic .diverges
  | n + 1, values => do
    let v ← langValue
    let c ← peek
    if c.token.isKind .rightParen then pure (values ++ [v]) else langValues n (values ++ [v])

/-- css_ast/src/selector/functional_pseudo_class.rs:11-27: the functions whose value is a selector list. -/
def SELECTOR_FUNCTIONS : List (List Char) := [c!"has", c!"host", c!"host-context", c!"is", c!"not", c!"where"]

/-- css_ast/src/selector/functional_pseudo_class.rs:66-76: the value and the closing parenthesis, by the name of the function. -/
def functionalPseudoClassValue (list : Prog (List (List Sel × Option Cursor))) (fuel : Nat) (colon : Cursor) (name : List Char) (function : Cursor) :
    Prog Sel := do
  if name == c!"dir" then do
    let v ← keyword [c!"rtl", c!"ltr"]
    let close ← optionalClose
    pure (.fnToken name colon function v.2 close)
  else if name == c!"state" then do
    let v ← tok (isKind .ident)
    let close ← optionalClose
    pure (.fnToken name colon function v close)
  else if name == c!"lang" then do
    let v ← langValues fuel []
    let close ← optionalClose
    pure (.fnLang colon function v close)
  else if SELECTOR_FUNCTIONS.contains name then do
    let v ← list
    let close ← optionalClose
    pure (.fnSelectors name colon function v close)
  else do
    let v ← nth
    let close ← optionalClose
    pure (.fnNth name colon function v close)

/-- css_ast/src/selector/functional_pseudo_class.rs:55-80 `Parse for FunctionalPseudoClass`. -/
def functionalPseudoClass (list : Prog (List (List Sel × Option Cursor))) (fuel : Nat) : Prog Sel :=
  setSkip KindSet.NONE fun skip => do
    let colon ← result (tok (isKind .colon))
    let name ← result (functionOf FUNCTIONAL_PSEUDO_CLASSES)
    setSkip skip fun _ => do
      let colon ← ofResult colon
      let name ← ofResult name
      functionalPseudoClassValue list fuel colon name.1 name.2

/-- css_ast/src/selector/functional_pseudo_element.rs:33-39: the loop of `part`. -/
def partLoop : Nat → List Cursor → Prog (List Cursor)
  | 0, _ => .panic .diverges
  | n + 1, values => do
    let c ← peek
    if c.token.isKind .rightParen then pure values
    else do
      let v ← tok (isKind .ident)
      partLoop n (values ++ [v])

/-- css_ast/src/selector/functional_pseudo_element.rs:22-54 `Parse for FunctionalPseudoElement`. -/
def functionalPseudoElement (compound : Prog (List Sel)) (fuel : Nat) : Prog Sel := do
  let colons ← colonColon
  let function ← tok (isKind .function)
  let name ← Prog.strLower function
  if name == c!"highlight" then do
    let v ← tok (isKind .ident)
    let close ← optionalClose
    pure (.highlight colons.1 colons.2 function v close)
  else if name == c!"part" then do
    let v ← partLoop fuel []
    let close ← optionalClose
    pure (.part colons.1 colons.2 function v close)
  else if name == c!"slotted" then do
    let v ← compound
    let close ← optionalClose
    pure (.slotted colons.1 colons.2 function v close)
  else fail .other function

/-- css_ast/src/selector/class.rs:21-27 `Parse for Class`. -/
def classSelector : Prog Sel := do
  let dot ← tok (isDelim '.')
  let name ← tok (isKind .ident)
  pure (.cls dot name)

/-- css_parse/src/traits/selectors.rs:98-111: the component begins with an identifier. `skip` is what was skipped before. -/
def selIdent (skip : KindSet) : Prog Sel := do
  let c2 ← peekN 2
  if c2.token.isChar '|' then
    setSkip skip fun _ => do
      let n ← namespaceSelector
      pure (.ns n)
  else do
    let c ← take
    setSkip skip fun _ => do
      if c.token.isKind .ident then do
        let t ← buildTag c
        pure (.tag t.1 t.2)
      else do
        let _ ← Prog.strLower c
        fail .other c

/-- css_parse/src/traits/selectors.rs:112-120: the component begins with a hash that is like an identifier. -/
def selHash (skip : KindSet) : Prog Sel := do
  let c ← take
  setSkip skip fun _ => do
    if c.token.isKind .hash then pure (.id c)
    else do
      let _ ← Prog.strLower c
      fail .other c

/-- css_parse/src/traits/selectors.rs:126-133. -/
def selDot (skip : KindSet) : Prog Sel := do
  let c2 ← peekN 2
  setSkip skip fun _ => do
    if c2.token.isKind .ident then classSelector else fail .expectedIdent c2

/-- css_parse/src/traits/selectors.rs:134-143. -/
def selStar (skip : KindSet) : Prog Sel := do
  let c2 ← peekN 2
  setSkip skip fun _ => do
    if c2.token.isChar '|' then do
      let n ← namespaceSelector
      pure (.ns n)
    else do
      let c ← take
      pure (.wildcard c)

/-- css_parse/src/traits/selectors.rs:144-147. -/
def selDelim (skip : KindSet) : Prog Sel :=
  setSkip skip fun _ => do
    let c ← combinator
    pure (.combinator c)

/-- css_parse/src/traits/selectors.rs:152-162: after two colons. -/
def selColonColon (compound : Prog (List Sel)) (fuel : Nat) (skip : KindSet) : Prog Sel := do
  let c3 ← peekN 3
  setSkip skip fun _ => do
    if c3.token.isKind .ident then do
      let e ← pseudoElement
      pure (.pseudoElement e.1 e.2.1 e.2.2.1.1 e.2.2.1.2 e.2.2.2)
    else if c3.token.isKind .function then functionalPseudoElement compound fuel
    else fail .unexpected c3

/-- css_parse/src/traits/selectors.rs:163-170: an identifier after the colon `c`. -/
def selColonIdent (skip : KindSet) (c : Cursor) : Prog Sel :=
  setSkip skip fun _ => do
    if ← isPseudoClassOf LEGACY_PSEUDO_ELEMENTS c then do
      let e ← pseudoClassOf LEGACY_PSEUDO_ELEMENTS
      pure (.legacyPseudoElement e.1 e.2.1 e.2.2)
    else do
      let e ← pseudoClass
      pure (.pseudoClass e.1 e.2.1 e.2.2.1 e.2.2.2)

/-- css_parse/src/traits/selectors.rs:149-177: the component begins with the colon `c`. The last alternative does not put back what
is skipped. -/
def selColon (compound : Prog (List Sel)) (list : Prog (List (List Sel × Option Cursor))) (fuel : Nat) (skip : KindSet) (c : Cursor) : Prog Sel := do
  let c2 ← peekN 2
  if c2.token.isKind .colon then selColonColon compound fuel skip
  else if c2.token.isKind .ident then selColonIdent skip c
  else if c2.token.isKind .function then setSkip skip fun _ => functionalPseudoClass list fuel
  else fail .unexpected c2

/-- css_parse/src/traits/selectors.rs:178-187: anything else. -/
def selOther (skip : KindSet) : Prog Sel := do
  let value ← result combinator
  setSkip KindSet.WHITESPACE fun _ => consumeTrivia <| setSkip skip fun _ => do
    let c ← ofResult value
    pure (.combinator c)

/-- css_parse/src/traits/selectors.rs:91-190 `parse_selector_component`. -/
def selectorComponent (compound : Prog (List Sel)) (list : Prog (List (List Sel × Option Cursor))) (fuel : Nat) : Prog Sel :=
  setSkip KindSet.COMMENTS fun skip => do
    let c ← peekN 1
    if c.token.isKind .ident then selIdent skip
    else if c.token.isKind .hash && c.token.hashIsIdLike then selHash skip
    else if c.token.isKind .leftSquare then setSkip skip fun _ => do
      let a ← attributeSelector
      pure (.attr a)
    else if c.token.isKind .delim then
      if c.token.isChar '.' then selDot skip
      else if c.token.isChar '*' then selStar skip
      else selDelim skip
    else if c.token.isKind .colon then selColon compound list fuel skip c
    else selOther skip

/-- css_parse/src/traits/selectors.rs:50-58: the loop of `parse_compound_selector`. -/
def compoundLoop (component : Prog Sel) : Nat → List Sel → Prog (List Sel)
  | 0, _ => .panic .diverges
  | n + 1, parts => do
    if ← atEnd then pure parts
    else
      let c ← peekN 1
      if c.token.inSet KindSet.LEFT_CURLY_RIGHT_PAREN_COMMA_OR_SEMICOLON then pure parts
      else do
        let s ← component
        compoundLoop component n (parts ++ [s])

/-- css_parse/src/traits/selectors.rs:25-36: the loop of `parse_selector_list`. -/
def selectorListLoop (compound : Prog (List Sel)) : Nat → List (List Sel × Option Cursor) → Prog (List (List Sel × Option Cursor))
  | 0, _ => .panic .diverges
  | n + 1, parts => do
    if ← atEnd then pure parts
    else
      let c ← peekN 1
      if c.token.inSet KindSet.LEFT_CURLY_RIGHT_PAREN_OR_SEMICOLON then pure parts
      else do
        let s ← compound
        let comma ← ifPeek (isKind .comma) (tok (isKind .comma))
        selectorListLoop compound n (parts ++ [(s, comma)])

/-- css_parse/src/traits/selectors.rs:46-60 `parse_compound_selector`, css_ast/src/selector/mod.rs:82-86. -/
def compoundSelector : Nat → Prog (List Sel)
  | 0 => .panic .diverges
  | n + 1 => consumeTrivia (compoundLoop (selectorComponent (compoundSelector n) (selectorListLoop (compoundSelector n) n []) n) (n + 1) [])

/-- css_parse/src/traits/selectors.rs:25-36 `parse_selector_list`, css_ast/src/selector/mod.rs:50-54. -/
def selectorListFuel (n : Nat) : Prog (List (List Sel × Option Cursor)) := selectorListLoop (compoundSelector n) n []

/-- css_ast/src/selector/mod.rs:50-54 `Parse for SelectorList`, with enough fuel for the source. -/
def selectorList : Prog (List (List Sel × Option Cursor)) := .read fun p => selectorListFuel p.fuel

end Hdx
