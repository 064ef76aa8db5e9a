/-
Property C62: how a single node is parsed, optionally or not. More of C34: errors.
-/
import Verif.Props.Rules

namespace Hdx
open Spec Prog

/-- `parse` of a node with a `peek` and a `build`: exactly one token is consumed, whether it fits or not; if it fits, the node is built from it;
otherwise the error is `Unexpected` and its span is the span of that very token. -/
theorem C62_node {α : Type} {peek : Parser → Cursor → Except Panic Bool} {build : Parser → Cursor → Except Panic α} {p p' : Parser} {c : Cursor} {fits : Bool}
    (hn : p.next = .ok (c, p')) (hp : peek p c = .ok fits) :
    Parser.parseBuild peek build p = if fits then (build p' c).map (fun a => (.ok a, p')) else .ok (.error ⟨.unexpected, c.span⟩, p') := by
  unfold Parser.parseBuild
  rw [peek_of_next hn]
  simp only [hp, hn]

/-- The same for the programs of the model. -/
theorem C62_token {fits : Cursor → Bool} {p p' : Parser} {c : Cursor} (hn : p.next = .ok (c, p')) :
    (tok fun c => pure (fits c)).run p = .ok (if fits c then .ok c else .error ⟨.unexpected, c.span⟩, p') := by
  have : Gives (tok fun c => pure (fits c)) p (if fits c then .ok c else .error ⟨.unexpected, c.span⟩) p' [c] := gives_tok.mpr ⟨c, hn, rfl, rfl⟩
  exact run_of_gives this

/-- The span of the error is the text of the offending token: in ` a` with a number expected, the two bytes 1..2. -/
example : ((tok (isKind .number)).run (Parser.new c!" a")).map (fun r => (r.1, r.2.offset)) = .ok (.error ⟨.unexpected, ⟨1, 2⟩⟩, 2) := by decide +kernel

/-- `parse_if_peek` when the next token does not fit: nothing, and the parser is not touched. -/
theorem C62_if_peek_no {α : Type} {peek : Parser → Cursor → Except Panic Bool} {parse : ParseFn α} {p : Parser} {c : Cursor}
    (hc : p.peekNext = .ok c) (hp : peek p c = .ok false) : Parser.parseIfPeek peek parse p = .ok (.ok none, p) := by
  unfold Parser.parseIfPeek
  simp only [hc, hp]

/-- `parse_if_peek` when it does: the same as `parse`. -/
theorem C62_if_peek_yes {α : Type} {peek : Parser → Cursor → Except Panic Bool} {parse : ParseFn α} {p p' : Parser} {c : Cursor} {r : Except Diag α}
    (hc : p.peekNext = .ok c) (hp : peek p c = .ok true) (h : parse p = .ok (r, p')) : Parser.parseIfPeek peek parse p = .ok (r.map some, p') := by
  unfold Parser.parseIfPeek
  simp only [hc, hp, h, Except.map]

/-- The same for the programs of the model, for a test that only looks at the cursor. -/
theorem C62_optional {α : Type} {fits : Cursor → Bool} {body : Prog α} {p : Parser} {c : Cursor} (hc : p.peekNext = .ok c) :
    (ifPeek (fun c => pure (fits c)) body).run p = if fits c then (body.run p).map (fun r => (r.1.map some, r.2)) else .ok (.ok none, p) := by
  unfold ifPeek Prog.run
  rw [bind_def, Prog.bind, runLog_bindE]
  have h1 : Prog.peek.runLog p = .ok (.ok c, p, []) := by
    have : Gives Prog.peek p (.ok c) p [] := gives_peek.mpr ⟨c, hc, rfl, rfl, rfl⟩
    exact this
  rw [h1]
  simp only
  cases hf : fits c with
  | false => rfl
  | true =>
    simp only [if_true]
    rw [bind_def, Prog.bind, runLog_bindE]
    have h2 : (pure true : Prog Bool).runLog p = .ok (.ok true, p, []) := rfl
    rw [h2]
    simp only [if_true]
    rw [bind_def, Prog.bind, runLog_bindE]
    cases hb : body.runLog p with
    | error e => rfl
    | ok y =>
      obtain ⟨r, q, w⟩ := y
      cases r <;> rfl

example : ((ifPeek (isKind .number) (tok (isKind .number))).run (Parser.new c!" a")).map (fun r => (r.1.toOption, r.2.offset)) = .ok (some none, 0)
    ∧ ((ifPeek (isKind .ident) (tok (isKind .ident))).run (Parser.new c!" a")).map (fun r => (r.1.toOption.map (·.isSome), r.2.offset)) = .ok (some true, 2) := by
  decide +kernel

/-! ## C34: errors -/

/-- Errors and trivia that were added after a checkpoint are gone after the rewind, and those that were there before are not; for fewer than 256 errors
and 65536 trivia. -/
theorem C34_errors_partial {p q : Parser} {errors : List Diag} {trivia : List Cursor} (he : p.errors.length < 256) (ht : p.trivia.length < 65536)
    (h1 : q.errors = p.errors ++ errors) (h2 : q.trivia = p.trivia ++ trivia) :
    (q.rewind p.checkpoint).errors = p.errors ∧ (q.rewind p.checkpoint).trivia = p.trivia := by
  simp only [Parser.rewind, Parser.checkpoint, h1, h2, Nat.mod_eq_of_lt he, Nat.mod_eq_of_lt ht]
  simp

/-- With 256 errors they are all gone: the length is kept in a byte. -/
theorem C34_errors_counterexample : ∃ p : Parser, p.errors.length = 256 ∧ (p.rewind p.checkpoint).errors = [] := by
  have hl : ∀ n, ∃ es : List Diag, es.length = n := fun n => ⟨List.replicate n ⟨.unexpected, ⟨0, 0⟩⟩, List.length_replicate⟩
  obtain ⟨es, he⟩ := hl 256
  refine ⟨{ Parser.new [] with errors := es }, he, ?_⟩
  simp only [Parser.rewind, Parser.checkpoint, he]
  rfl

end Hdx
