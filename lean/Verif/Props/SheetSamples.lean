/-
C83: a style sheet with at-rules that meets the hypotheses, and at-rules that are read in another way.
-/
import Verif.Props.SheetAccepts

namespace Hdx
open Spec

def atSheet : List Char := c!"@layer a.b,c;@media print{a{}top:inherit}@layer d{@font-face{src:inherit;}}@keyframes x{from,50%{top:inherit}}@page e:left{top:inherit;@top-left{}}@property --p{syntax:\"f\";inherits:true}b{@container n{}}@document url(g){}"
/-- Its tokens. -/
def atSheetTokens : List Cursor := [
  ⟨0, ⟨167772160, 6⟩⟩, ⟨6, ⟨553648128, 1⟩⟩, ⟨7, ⟨134217728, 1⟩⟩, ⟨8, ⟨805306369, 46⟩⟩, ⟨9, ⟨134217728, 1⟩⟩, ⟨10, ⟨855638016, 44⟩⟩, ⟨11, ⟨134217728, 1⟩⟩,
  ⟨12, ⟨838860800, 59⟩⟩, ⟨13, ⟨167772160, 6⟩⟩, ⟨19, ⟨553648128, 1⟩⟩, ⟨20, ⟨134217728, 5⟩⟩, ⟨25, ⟨939524096, 123⟩⟩, ⟨26, ⟨134217728, 1⟩⟩, ⟨27, ⟨939524096, 123⟩⟩,
  ⟨28, ⟨956301312, 125⟩⟩, ⟨29, ⟨134217728, 3⟩⟩, ⟨32, ⟨822083584, 58⟩⟩, ⟨33, ⟨134217728, 7⟩⟩, ⟨40, ⟨956301312, 125⟩⟩, ⟨41, ⟨167772160, 6⟩⟩, ⟨47, ⟨553648128, 1⟩⟩,
  ⟨48, ⟨134217728, 1⟩⟩, ⟨49, ⟨939524096, 123⟩⟩, ⟨50, ⟨167772160, 10⟩⟩, ⟨60, ⟨939524096, 123⟩⟩, ⟨61, ⟨134217728, 3⟩⟩, ⟨64, ⟨822083584, 58⟩⟩, ⟨65, ⟨134217728, 7⟩⟩,
  ⟨72, ⟨838860800, 59⟩⟩, ⟨73, ⟨956301312, 125⟩⟩, ⟨74, ⟨956301312, 125⟩⟩, ⟨75, ⟨167772160, 10⟩⟩, ⟨85, ⟨553648128, 1⟩⟩, ⟨86, ⟨134217728, 1⟩⟩, ⟨87, ⟨939524096, 123⟩⟩,
  ⟨88, ⟨134217728, 4⟩⟩, ⟨92, ⟨855638016, 44⟩⟩, ⟨93, ⟨2231377958, 1112014848⟩⟩, ⟨96, ⟨939524096, 123⟩⟩, ⟨97, ⟨134217728, 3⟩⟩, ⟨100, ⟨822083584, 58⟩⟩, ⟨101, ⟨134217728, 7⟩⟩,
  ⟨108, ⟨956301312, 125⟩⟩, ⟨109, ⟨956301312, 125⟩⟩, ⟨110, ⟨167772160, 5⟩⟩, ⟨115, ⟨553648128, 1⟩⟩, ⟨116, ⟨134217728, 1⟩⟩, ⟨117, ⟨822083584, 58⟩⟩, ⟨118, ⟨134217728, 4⟩⟩,
  ⟨122, ⟨939524096, 123⟩⟩, ⟨123, ⟨134217728, 3⟩⟩, ⟨126, ⟨822083584, 58⟩⟩, ⟨127, ⟨134217728, 7⟩⟩, ⟨134, ⟨838860800, 59⟩⟩, ⟨135, ⟨167772160, 9⟩⟩, ⟨144, ⟨939524096, 123⟩⟩,
  ⟨145, ⟨956301312, 125⟩⟩, ⟨146, ⟨956301312, 125⟩⟩, ⟨147, ⟨167772160, 9⟩⟩, ⟨156, ⟨553648128, 1⟩⟩, ⟨157, ⟨1207959552, 3⟩⟩, ⟨160, ⟨939524096, 123⟩⟩, ⟨161, ⟨134217728, 6⟩⟩,
  ⟨167, ⟨822083584, 58⟩⟩, ⟨168, ⟨1811939328, 3⟩⟩, ⟨171, ⟨838860800, 59⟩⟩, ⟨172, ⟨134217728, 8⟩⟩, ⟨180, ⟨822083584, 58⟩⟩, ⟨181, ⟨134217728, 4⟩⟩, ⟨185, ⟨956301312, 125⟩⟩,
  ⟨186, ⟨134217728, 1⟩⟩, ⟨187, ⟨939524096, 123⟩⟩, ⟨188, ⟨167772160, 10⟩⟩, ⟨198, ⟨553648128, 1⟩⟩, ⟨199, ⟨134217728, 1⟩⟩, ⟨200, ⟨939524096, 123⟩⟩, ⟨201, ⟨956301312, 125⟩⟩,
  ⟨202, ⟨956301312, 125⟩⟩, ⟨203, ⟨167772160, 9⟩⟩, ⟨212, ⟨553648128, 1⟩⟩, ⟨213, ⟨754991105, 6⟩⟩, ⟨219, ⟨939524096, 123⟩⟩, ⟨220, ⟨956301312, 125⟩⟩]
def atSheetToken (i : Nat) : Cursor := atSheetTokens.getD i ⟨0, Token.EOF⟩

/-- A declaration with `inherit`. -/
def inheritText (i : Nat) (name : List Char) (semicolon : Option Cursor) : DeclText := ⟨atSheetToken i, name, atSheetToken (i + 1), .wide c!"inherit" (atSheetToken (i + 2)), none, semicolon⟩

def atSheetTree : SheetTree :=
  let t := atSheetToken
  .rule (.leaf [t 0, t 1, t 2, t 3, t 4, t 5, t 6, t 7] (.layers (t 0) [(⟨t 2, [(t 3, t 4)]⟩, some (t 5)), (⟨t 6, []⟩, none)] (t 7)))
  (.rule (.media [t 8, t 9, t 10] (t 8) ⟨none, some (some c!"print", t 10), none, none⟩ (t 11)
    (.rule (.style [⟨[], [.tag (t 12)], [], none⟩] [] (t 13) (.done []) (t 14)) (.declaration [t 15, t 16, t 17] (inheritText 15 c!"top" none) (.done []))) (t 18))
  (.rule (.group [t 19, t 20, t 21] (t 19) (.layer (some ⟨t 21, []⟩)) (t 22)
    (.rule (.leaf [t 23, t 24, t 25, t 26, t 27, t 28, t 29] (.fontFace (t 23) (t 24) [inheritText 25 c!"src" (some (t 28))] (t 29))) (.done [])) (t 30))
  (.rule (.leaf [t 31, t 32, t 33, t 34, t 35, t 36, t 37, t 38, t 39, t 40, t 41, t 42, t 43]
    (.keyframes false (t 31) (t 33) (t 34) [⟨[(.from (t 35), some (t 36)), (.percent (t 37), none)], t 38, [inheritText 39 c!"top" none], t 42⟩] (t 43)))
  (.rule (.leaf [t 44, t 45, t 46, t 47, t 48, t 49, t 50, t 51, t 52, t 53, t 54, t 55, t 56, t 57]
    (.page (t 44) [(⟨some (t 46), [(c!"left", t 47, t 48)]⟩, none)] (t 49) [.declaration (inheritText 50 c!"top" (some (t 53))), .margin (t 54) (t 55) [] (t 56)] (t 57)))
  (.rule (.leaf [t 58, t 59, t 60, t 61, t 62, t 63, t 64, t 65, t 66, t 67, t 68, t 69]
    (.property (t 58) (t 60) (t 61) [⟨t 62, t 63, .syntax (t 64), some (t 65)⟩, ⟨t 66, t 67, .inherits c!"true" (t 68), none⟩] (t 69)))
  (.rule (.style [⟨[], [.tag (t 70)], [], none⟩] [] (t 71)
    (.rule (.group [t 72, t 73, t 74] (t 72) (.container [⟨some (t 74), none⟩]) (t 75) (.done []) (t 76)) (.done [])) (t 77))
  (.rule (.group [t 78, t 79, t 80] (t 78) (.document false [(.url (t 80), none)]) (t 81) (.done []) (t 82)) (.done []))))))))

set_option maxRecDepth 4000 in
set_option maxHeartbeats 2000000 in
/-- The hypotheses of C83 are met: at-rules. -/
example : byteLen atSheet < 65536 ∧ Tame {} atSheet ∧ Stream (Parser.newWithFeatures atSheet {}).lexer atSheetTree.tokens ∧ atSheetTree.Fits atSheet := by
  have hplain : PlainNames atSheet := plainNames_of (by unfold Upper; decide +kernel) (by decide +kernel)
  have htame : Tame {} atSheet := tame_of_ascii (by decide +kernel) (by decide +kernel)
  have hready : Ready (Parser.new atSheet) := ready_new htame
  have hstream : Stream (Parser.new atSheet).lexer atSheetTree.tokens := lexUpTo_stream 120 (by decide +kernel)
  have hclear : ∀ c ∈ atSheetTree.tokens, Clear atSheet c := by
    obtain ⟨x, hb⟩ := hready.before
    exact clear_of_stream hstream hb hready.tame hplain
  have hin : atSheetTree.tokens = (List.range 83).map atSheetToken := by decide +kernel
  have hc : ∀ i, i < 83 → Clear atSheet (atSheetToken i) := fun i h => hclear _ (by rw [hin]; exact List.mem_map.mpr ⟨i, List.mem_range.mpr h, rfl⟩)
  have hgap : Gap [] := by unfold Gap; exact nofun
  have called {i : Nat} {name : List Char} (h : IsKind .atKeyword (atSheetToken i) ∧ Named atSheet (atSheetToken i) name ∧ (atSheetToken i).eqIgnoreAsciiCase atSheet name = .ok true) :
    AtCalled atSheet name (atSheetToken i) := h
  have decl {i : Nat} {name : List Char} {s : Option Cursor} (h1 : IsKind .ident (atSheetToken i) ∧ Named atSheet (atSheetToken i) name ∧ IsKind .colon (atSheetToken (i + 1)) ∧
      IsKind .ident (atSheetToken (i + 2)) ∧ Named atSheet (atSheetToken (i + 2)) c!"inherit") (hi : i + 2 < 83) (hn : ¬ ['-', '-'] <+: name) (hs : ∀ c ∈ s, IsKind .semicolon c) :
      (inheritText i name s).Fits atSheet :=
    ⟨⟨h1.1, h1.2.1, hc i (by omega)⟩, h1.2.2.1, ⟨h1.2.2.2.1, h1.2.2.2.2, hc (i + 2) hi, by decide, hn⟩, nofun, hs, nofun⟩
  have one {i : Nat} {o : Cursor} (h1 : IsKind .ident (atSheetToken i)) (h2 : (atSheetToken i).token.inSet KindSet.TRIVIA = false) (ho : IsKind .leftCurly o)
      (h3 : (SelPiece.tag (atSheetToken i)).Fits atSheet [o]) : GroupsFit atSheet [⟨[], [.tag (atSheetToken i)], [], none⟩] ([] ++ [o]) :=
    ⟨hgap, by simp, ⟨atSheetToken i, rfl, h2⟩, ⟨h3, trivial⟩, hgap, ⟨rfl, rfl⟩, .inr ⟨[], o, [], rfl, hgap, by rw [inSet_of_kind (k := .leftCurly) (by decide) ho]; decide⟩⟩
  have semi {i : Nat} (h : IsKind .semicolon (atSheetToken i)) : ∀ c ∈ some (atSheetToken i), IsKind .semicolon c := fun c hc => by cases hc; exact h
  refine ⟨by decide, htame, hstream, ?_, ?_, ?_, ?_, ?_, ?_, ?_, ?_, hgap⟩
  · exact ⟨by decide +kernel, ⟨called (by decide +kernel), ⟨⟨by decide +kernel, fun x hx => by cases List.mem_singleton.mp hx; exact ⟨⟨by decide +kernel, by decide +kernel⟩, by decide +kernel⟩⟩, ⟨_, rfl, by decide +kernel⟩, ⟨by decide +kernel, nofun⟩, rfl⟩, by decide +kernel⟩, nofun⟩
  · refine ⟨by decide +kernel, called (by decide +kernel), ⟨nofun, ?_, nofun, nofun, .inr ⟨rfl, by decide⟩⟩, by decide +kernel, ⟨?_, ⟨by simp, one (by decide +kernel) (by decide +kernel) (by decide +kernel) ⟨by decide +kernel, by decide +kernel⟩,
      by decide +kernel, hgap, by decide +kernel, hgap, by decide +kernel⟩, by decide +kernel, decl (by decide +kernel) (by decide) (by decide) nofun, fun _ => rfl, hgap⟩, by decide +kernel⟩
    · rintro _ ⟨⟩
      exact ⟨⟨by decide +kernel, by decide +kernel, by decide⟩, hc 10 (by decide)⟩
    · intro a b more h _
      have e : solid [atSheetToken 12, atSheetToken 13, atSheetToken 14] = a :: b :: more := h
      have e2 : (solid [atSheetToken 12, atSheetToken 13, atSheetToken 14])[1]? = some (atSheetToken 13) := by decide +kernel
      rw [e] at e2
      cases e2
      decide +kernel
  · refine ⟨by decide +kernel, called (by decide +kernel), ?_, nofun, by decide +kernel, ⟨⟨by decide +kernel, ⟨called (by decide +kernel), by decide +kernel,
      ⟨decl (by decide +kernel) (by decide) (by decide) (semi (by decide +kernel)), nofun, trivial⟩, ?_, by decide +kernel⟩, nofun⟩, hgap⟩, by decide +kernel⟩
    · rintro _ ⟨⟩
      exact ⟨by decide +kernel, nofun⟩
    · intro d hd
      cases List.mem_singleton.mp hd
      decide
  · refine ⟨by decide +kernel, ⟨called (by decide +kernel), .inr ⟨by decide +kernel, c!"x", by decide +kernel, by decide⟩, by decide +kernel, ?_, by decide +kernel⟩, nofun⟩
    intro f hf
    cases List.mem_singleton.mp hf
    exact ⟨⟨⟨⟨by decide +kernel, by decide +kernel⟩, hc 35 (by decide)⟩, ⟨_, rfl, by decide +kernel⟩, ⟨⟨⟨by decide +kernel, .inl (.inl (by decide +kernel))⟩, by unfold AtLeast; decide +kernel, by unfold AtMost; decide +kernel⟩, hc 37 (by decide)⟩, rfl⟩, by decide +kernel,
      ⟨decl (by decide +kernel) (by decide) (by decide) nofun, fun _ => rfl, trivial⟩, by decide +kernel⟩
  · refine ⟨by decide +kernel, ⟨called (by decide +kernel), .inr ⟨⟨⟨?_, ?_⟩, nofun, ?_⟩, rfl⟩, by decide +kernel, ⟨decl (by decide +kernel) (by decide) (by decide) (semi (by decide +kernel)), nofun,
      by decide +kernel, ⟨c!"top-left", by decide, by decide +kernel⟩, by decide +kernel, trivial, by decide +kernel, trivial⟩, by decide +kernel⟩, nofun⟩
    · intro c h
      cases h
      decide +kernel
    · intro x hx
      cases List.mem_singleton.mp hx
      exact ⟨by decide +kernel, by decide +kernel, by decide +kernel, by decide⟩
    · intro x hx
      cases List.mem_singleton.mp hx
      exact ⟨by unfold Touch; decide +kernel, hc 48 (by decide)⟩
  · refine ⟨by decide +kernel, ⟨called (by decide +kernel), ⟨by decide +kernel, by decide +kernel⟩, by decide +kernel, ⟨⟨by decide +kernel, hc 62 (by decide), by decide +kernel, semi (by decide +kernel), by decide +kernel, by decide +kernel⟩, nofun,
      ⟨by decide +kernel, hc 66 (by decide), by decide +kernel, nofun, by decide +kernel, ⟨by decide +kernel, by decide +kernel, by decide⟩, hc 68 (by decide)⟩, fun _ => rfl, trivial⟩, by decide +kernel⟩, nofun⟩
  · refine ⟨by simp, one (by decide +kernel) (by decide +kernel) (by decide +kernel) ⟨by decide +kernel, by decide +kernel⟩, by decide +kernel, hgap, by decide +kernel,
      ⟨?_, ⟨by decide +kernel, called (by decide +kernel), ⟨by decide +kernel, hc 74 (by decide), c!"n", by decide +kernel, by decide⟩, fun _ => by decide, by decide +kernel, hgap, by decide +kernel⟩, hgap⟩, by decide +kernel⟩
    intro a b more h ha
    have e : solid [atSheetToken 72, atSheetToken 73, atSheetToken 74, atSheetToken 75, atSheetToken 76] = a :: b :: more := h
    have e2 : (solid [atSheetToken 72, atSheetToken 73, atSheetToken 74, atSheetToken 75, atSheetToken 76])[0]? = some (atSheetToken 72) := by decide +kernel
    rw [e] at e2
    cases e2
    exact absurd ha (by decide +kernel)
  · refine ⟨by decide +kernel, called (by decide +kernel), ⟨⟨?_, (by decide +kernel : IsKind .url (atSheetToken 80)), trivial⟩, rfl⟩, nofun, by decide +kernel, hgap, by decide +kernel⟩
    intro c h
    cases List.mem_singleton.mp h
    exact hc 80 (by decide)

/-! ### At-rules that are read in another way -/

/-- Of each rule, if it is an at-rule that is not known to hdx, or is not right. -/
def unknownRules (src : List Char) : Option (List Bool) :=
  match (cssStyleSheet realValues).run (Parser.new src) with
  | .ok (.ok rs, _) => some (rs.map fun | .unknownAt _ => true | _ => false)
  | _ => none

/-- Two semicolons together make an at-rule of declarations or rules an unknown one (`DeclsFit` and `NoSemicolon` are needed); in CSS, they are nothing. -/
theorem C83_counterexample_semicolons :
    unknownRules c!"@keyframes x{from{top:inherit;}}@keyframes x{from{top:inherit;;}}@font-face{src:inherit;}@font-face{src:inherit;;}@layer a{b{};}@layer a{b{};;}" = some [false, true, false, true, false, true] := by
  decide +kernel
/-- `initial-value` in `@property` takes what follows, with the semicolons: it is not a descriptor of C83. -/
def descriptorCount (src : List Char) : Option Nat :=
  match (cssStyleSheet realValues).run (Parser.new src) with
  | .ok (.ok [.property _ _ b], _) => some b.items.length
  | _ => none
theorem C83_counterexample_initial : descriptorCount c!"@property --a{syntax:'*';initial-value:1px}" = some 2 ∧ descriptorCount c!"@property --a{initial-value:1px;syntax:'*'}" = some 1 := by decide +kernel

end Hdx
