/-
C84: media queries and container conditions of the grammar are read as they are written.
-/
import Verif.Lemmas.MediaYields
import Verif.Props.ValueAccepts
import Verif.Props.RuleLabels

namespace Hdx
open Spec Prog

/-- The prelude of `@media`: a media query up to `{` is read, as it is written, and what follows is left. (`QueryRead` says what hdx reads of the grammar.) -/
theorem C84_media_partial {p : Parser} (hr : Ready p) (hs : p.skip = KindSet.TRIVIA) {cs : List Cursor} (ht : Stream p.lexer cs) {q : MediaQuery} {o : Cursor} {rest : List Cursor}
    (hcs : solid cs = q.cursors ++ o :: rest) (hq : QueryRead p.lexer.source q) (ho : IsKind .leftCurly o) :
    ∃ p', (preludeList (mediaQuery p.fuel) p.fuel).run p = .ok (.ok [q], p') ∧ ∃ cs', Stream p'.lexer cs' ∧ solid cs' = o :: rest := by
  obtain ⟨cs', hl, hlen⟩ := hr.left
  cases hl.stream.det ht
  obtain ⟨m, hm⟩ : ∃ m, p.fuel = m + 1 := ⟨p.fuel - 1, by omega⟩
  obtain ⟨x, p', u, h1, h2, rfl⟩ := preludeOne_yields (fuel := m) ho (mediaQuery_yields (fuel := m) (ts := rest) hq ho) (p := p) ⟨rfl, hs, cs, ht, hcs, hlen⟩
  obtain ⟨cs2, g1, g2, _⟩ := h2.stream
  refine ⟨p', ?_, cs2, g1, g2⟩
  unfold Prog.run
  rw [hm, show (preludeList (mediaQuery (m + 1)) (m + 1)).runLog p = .ok (_, p', u) from h1]
  rfl

/-- The prelude of `@container`: a name, a condition, or both, up to `{`. -/
theorem C84_container_partial {p : Parser} (hr : Ready p) (hs : p.skip = KindSet.TRIVIA) {cs : List Cursor} (ht : Stream p.lexer cs) {qs : List ContainerCondition} {o : Cursor} {rest : List Cursor}
    (hcs : solid cs = (qs.map ContainerCondition.cursors).flatten ++ o :: rest) (hq : ContainersRead p.lexer.source qs) (ho : IsKind .leftCurly o) :
    ∃ p', (preludeList (containerCondition p.fuel) p.fuel).run p = .ok (.ok qs, p') ∧ ∃ cs', Stream p'.lexer cs' ∧ solid cs' = o :: rest := by
  obtain ⟨cs', hl, hlen⟩ := hr.left
  cases hl.stream.det ht
  obtain ⟨m, hm⟩ : ∃ m, p.fuel = m + 2 := ⟨p.fuel - 2, by unfold Parser.fuel; omega⟩
  obtain ⟨x, p', u, h1, h2, rfl⟩ := containers_yields (fuel' := m + 1) (fuel := m) (ts := rest) hq ho (p := p) ⟨rfl, hs, cs, ht, hcs, hlen⟩
  obtain ⟨cs2, g1, g2, _⟩ := h2.stream
  refine ⟨p', ?_, cs2, g1, g2⟩
  unfold Prog.run
  rw [hm, show (preludeList (containerCondition (m + 1 + 1)) (m + 2)).runLog p = .ok (_, p', u) from h1]
  rfl

/-! ### Cases that meet the hypotheses, and others that are not read -/

theorem clear_sample {src : List Char} (h1 : ∀ d ∈ src, d ≠ '\\' ∧ d ≠ NUL ∧ ¬ Upper d) (h2 : ¬ c!"sv" <:+: src) (h3 : ∀ c ∈ src, c.toNat < 128) (h4 : byteLen src < 2 ^ 12) {cs : List Cursor}
    (hs : Stream (Parser.new src).lexer cs) : ∀ c ∈ solid cs, Clear src c := fun c hc => by
  have hready : Ready (Parser.new src) := ready_new (tame_of_ascii h3 h4)
  obtain ⟨x, hb⟩ := hready.before
  exact clear_of_stream hs hb hready.tame (plainNames_of h1 h2) c (List.mem_filter.mp hc).1

def sampleMedia : List Char := c!"only screen and (400px <= width/**/< 50em) and (hover:none) {}"
def sampleMediaToken (i : Nat) : Cursor := (solid ((lexUpTo 60 (Parser.new sampleMedia).lexer).getD [])).getD i ⟨0, Token.EOF⟩

def sampleQuery : MediaQuery :=
  let t := sampleMediaToken
  ⟨some (c!"only", t 0), some (some c!"screen", t 1), some (t 2), some (.and [
    (.ranged c!"Width" (.range (t 3) (t 4) (.lessThanEqual (t 5) (t 6)) (t 7) (.lessThan (t 8)) (t 9) (t 10)), some (t 11)),
    (.discrete c!"Hover" (.withValue (t 12) (t 13) (t 14) (c!"none", t 15) (t 16)), none)])⟩

/-- The hypotheses of the first theorem are met, by a query with a type, a range and a feature with keywords. -/
example : let p := Parser.new sampleMedia
    Ready p ∧ p.skip = KindSet.TRIVIA ∧ (∃ cs, Stream p.lexer cs ∧ solid cs = sampleQuery.cursors ++ sampleMediaToken 17 :: [sampleMediaToken 18]) ∧ QueryRead sampleMedia sampleQuery ∧
      IsKind .leftCurly (sampleMediaToken 17) := by
  have hready : Ready (Parser.new sampleMedia) := ready_new (tame_of_ascii (by decide) (by decide))
  have hstream : Stream (Parser.new sampleMedia).lexer ((lexUpTo 60 (Parser.new sampleMedia).lexer).getD []) := lexUpTo_stream 60 (by decide +kernel)
  have hsolid : solid ((lexUpTo 60 (Parser.new sampleMedia).lexer).getD []) = sampleQuery.cursors ++ sampleMediaToken 17 :: [sampleMediaToken 18] := by decide +kernel
  have hclear := clear_sample (src := sampleMedia) (by unfold Upper; decide) (by decide) (by decide) (by decide) hstream
  rw [hsolid] at hclear
  have cl : ∀ i < 17, Clear sampleMedia (sampleMediaToken i) := fun i hi => hclear _ (by
    have : sampleQuery.cursors = (List.range 17).map sampleMediaToken := rfl
    rw [this]
    exact List.mem_append_left _ (List.mem_map_of_mem (List.mem_range.mpr hi)))
  have word : ∀ {i : Nat} {s : List Char}, (IsKind .ident (sampleMediaToken i) ∧ Named sampleMedia (sampleMediaToken i) s) → IsWord sampleMedia s (sampleMediaToken i) := fun h => ⟨h.1, .inl h.2⟩
  refine ⟨hready, rfl, ⟨_, hstream, hsolid⟩, ⟨?_, ?_, ?_, ?_, .inr ⟨rfl, by decide⟩⟩, by decide +kernel⟩
  · rintro _ ⟨⟩
    exact ⟨⟨by decide +kernel, by decide +kernel, by decide⟩, cl 0 (by decide)⟩
  · rintro _ ⟨⟩
    exact ⟨⟨by decide +kernel, by decide +kernel, by decide⟩, cl 1 (by decide)⟩
  · rintro _ ⟨⟩
    exact ⟨word (by decide +kernel), cl 2 (by decide)⟩
  · rintro _ ⟨⟩
    refine ⟨_, _, _, rfl, ⟨?_, c!"width", .lengths, by decide +kernel, rfl, ⟨by decide +kernel, ⟨.inr ⟨c!"px", by decide, by decide +kernel, .inl (.inl (by decide +kernel))⟩, nofun⟩,
      ⟨⟨by decide +kernel, by decide +kernel⟩, by decide +kernel, by decide +kernel⟩, ⟨c!"width", ⟨by decide +kernel, by decide +kernel, by decide⟩, by decide⟩, ⟨by decide +kernel, by decide +kernel⟩,
      ⟨.inr ⟨c!"em", by decide, by decide +kernel, .inl (.inl (by decide +kernel))⟩, nofun⟩, by decide +kernel⟩, ⟨(by unfold Touch; decide +kernel : Touch (sampleMediaToken 5) (sampleMediaToken 6)), trivial⟩, nofun⟩,
      ⟨?_, c!"hover", [c!"none", c!"hover"], by decide +kernel, rfl, by decide +kernel, word (by decide +kernel), by decide +kernel, ⟨by decide +kernel, by decide +kernel, by decide⟩, by decide +kernel⟩,
      ⟨by decide +kernel, by decide +kernel⟩, cl 11 (by decide)⟩
    · have : ∀ c ∈ [3, 4, 5, 6, 7, 8, 9, 10].map sampleMediaToken, Clear sampleMedia c := by
        intro c hc
        obtain ⟨i, hi, rfl⟩ := List.mem_map.mp hc
        exact cl i ((by decide : ∀ i ∈ [3, 4, 5, 6, 7, 8, 9, 10], i < 17) i hi)
      exact this
    · have : ∀ c ∈ [12, 13, 14, 15, 16].map sampleMediaToken, Clear sampleMedia c := by
        intro c hc
        obtain ⟨i, hi, rfl⟩ := List.mem_map.mp hc
        exact cl i ((by decide : ∀ i ∈ [12, 13, 14, 15, 16], i < 17) i hi)
      exact this

def sampleContainer : List Char := c!"foo (1px < width <= 2px) or (aspect-ratio: 16/9) {}"
def sampleContainerToken (i : Nat) : Cursor := (solid ((lexUpTo 60 (Parser.new sampleContainer).lexer).getD [])).getD i ⟨0, Token.EOF⟩

def sampleConditions : List ContainerCondition :=
  let t := sampleContainerToken
  [⟨some (t 0), none⟩, ⟨none, some (.or [
    (.length c!"width" (.range (t 1) (t 2) (.lessThan (t 3)) (t 4) (.lessThanEqual (t 5) (t 6)) (t 7) (t 8)), some (t 9)),
    (.ratio (.legacy (t 10) (t 11) (t 12) ⟨t 13, some (t 14), some (t 15)⟩ (t 16)), none)])⟩]

/-- The hypotheses of the second theorem are met, by a name and two features. -/
example : let p := Parser.new sampleContainer
    Ready p ∧ p.skip = KindSet.TRIVIA ∧ (∃ cs, Stream p.lexer cs ∧ solid cs = (sampleConditions.map ContainerCondition.cursors).flatten ++ sampleContainerToken 17 :: [sampleContainerToken 18]) ∧
      ContainersRead sampleContainer sampleConditions ∧ IsKind .leftCurly (sampleContainerToken 17) := by
  have hready : Ready (Parser.new sampleContainer) := ready_new (tame_of_ascii (by decide) (by decide))
  have hstream : Stream (Parser.new sampleContainer).lexer ((lexUpTo 60 (Parser.new sampleContainer).lexer).getD []) := lexUpTo_stream 60 (by decide +kernel)
  have hsolid : solid ((lexUpTo 60 (Parser.new sampleContainer).lexer).getD []) =
    (sampleConditions.map ContainerCondition.cursors).flatten ++ sampleContainerToken 17 :: [sampleContainerToken 18] := by decide +kernel
  have hclear := clear_sample (src := sampleContainer) (by unfold Upper; decide) (by decide) (by decide) (by decide) hstream
  rw [hsolid] at hclear
  have cl : ∀ i < 17, Clear sampleContainer (sampleContainerToken i) := fun i hi => hclear _ (by
    have : (sampleConditions.map ContainerCondition.cursors).flatten = (List.range 17).map sampleContainerToken := rfl
    rw [this]
    exact List.mem_append_left _ (List.mem_map_of_mem (List.mem_range.mpr hi)))
  refine ⟨hready, rfl, ⟨_, hstream, hsolid⟩, ⟨⟨by decide +kernel, cl 0 (by decide), c!"foo", by decide +kernel, by decide⟩, ?_⟩, by decide +kernel⟩
  refine ⟨_, _, _, rfl, ⟨?_, ⟨by decide, by decide +kernel, .inr ⟨c!"px", by decide, by decide +kernel, .inl (.inl (by decide +kernel))⟩, ⟨by decide +kernel, by decide +kernel⟩,
    ⟨c!"width", ⟨by decide +kernel, by decide +kernel, by decide⟩, by decide⟩, ⟨⟨by decide +kernel, by decide +kernel⟩, by decide +kernel, by decide +kernel⟩,
    .inr ⟨c!"px", by decide, by decide +kernel, .inl (.inl (by decide +kernel))⟩, by decide +kernel⟩, ⟨trivial, (by unfold Touch; decide +kernel : Touch (sampleContainerToken 5) (sampleContainerToken 6))⟩, rfl, rfl⟩,
    ⟨?_, ⟨by decide +kernel, ⟨c!"aspect-ratio", by decide +kernel, by decide +kernel, by decide⟩, by decide +kernel, ⟨⟨by decide +kernel, by decide +kernel⟩, .inr ⟨_, _, rfl, rfl, ⟨by decide +kernel, by decide +kernel⟩, by decide +kernel, by decide +kernel⟩⟩,
      by decide +kernel⟩, trivial, trivial⟩, ⟨by decide +kernel, by decide +kernel⟩, cl 9 (by decide)⟩
  · have : ∀ c ∈ [1, 2, 3, 4, 5, 6, 7, 8].map sampleContainerToken, Clear sampleContainer c := by
      intro c hc
      obtain ⟨i, hi, rfl⟩ := List.mem_map.mp hc
      exact cl i ((by decide : ∀ i ∈ [1, 2, 3, 4, 5, 6, 7, 8], i < 17) i hi)
    exact this
  · have : ∀ c ∈ [10, 11, 12, 13, 14, 15, 16].map sampleContainerToken, Clear sampleContainer c := by
      intro c hc
      obtain ⟨i, hi, rfl⟩ := List.mem_map.mp hc
      exact cl i ((by decide : ∀ i ∈ [10, 11, 12, 13, 14, 15, 16], i < 17) i hi)
    exact this

/-- Features with a vendor prefix are not found with `min` or `max`; they are without. -/
theorem C84_counterexample_prefix : describeSheet c!"@media (-webkit-min-device-pixel-ratio:1.5){}@media (-webkit-device-pixel-ratio:1.5){}" =
    some [[c!"unknown at-rule"], [c!"media", c!"WebkitDevicePixelRatioMediaFeature"]] := by decide +kernel
/-- A number without a fraction is not taken for a number. -/
theorem C84_counterexample_number : describeSheet c!"@media (-webkit-device-pixel-ratio:2){}" = some [[c!"unknown at-rule"]] := by decide +kernel
/-- The name of a container feature may not come after `<=`; in media queries it may. -/
theorem C84_counterexample_fourth : describeSheet c!"@container (400px<=width){}@container (400px<width){}@media (400px<=width){}" =
    some [[c!"unknown at-rule"], [c!"container"], [c!"media", c!"Width"]] := by decide +kernel
/-- `<` and `=` with whitespace between are not `<=`. -/
theorem C84_counterexample_apart : describeSheet c!"@media (width< =400px){}" = some [[c!"unknown at-rule"]] := by decide +kernel
/-- Four of Mozilla's media features have a parser of their own, but the table names the parser of `-moz-device-pixel-ratio` for them: no query for them is read. -/
theorem C84_counterexample_moz : describeSheet c!"@media (-moz-os-version:windows-vista){}@media (-moz-mac-graphite-theme){}" = some [[c!"unknown at-rule"], [c!"unknown at-rule"]] := by decide +kernel

/-- A chain of three, and a negation, are not read. -/
theorem C84_counterexample_chain : describeSheet c!"@media (hover) and (hover) and (hover){}@container not (width>1px){}" = some [[c!"unknown at-rule"], [c!"unknown at-rule"]] := by decide +kernel

end Hdx
