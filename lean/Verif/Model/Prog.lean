/-
What an implementation of `Parse::parse` can do to the parser.

A `Prog α` is an arbitrary (terminating) program over the public interface of `Parser`: it may read anything, call `next`,
`consume_trivia`, `set_skip`, `set_stop`, `set_state`, and use `checkpoint`/`rewind` the way the code does - to undo a part of
itself. (`errors` is pushed to in `parse_entirely` only.) Theorems about every `Prog` are theorems about every grammar.
-/
import Verif.Model.Parser

namespace Hdx

/-- See above. -/
inductive Prog : Type → Type 1
  /-- return a result -/
  | ret {α : Type} (r : Except Diag α) : Prog α
  /-- panic -/
  | panic {α : Type} (e : Panic) : Prog α
  /-- anything that takes `&Parser`: `peek_next`, `peek_n`, `next_is_stop`, `at_end`, `parse_str`, ... -/
  | read {α : Type} (k : Parser → Prog α) : Prog α
  /-- css_parse/src/parser.rs:276-296 -/
  | next {α : Type} (k : Cursor → Prog α) : Prog α
  /-- css_parse/src/parser.rs:261-274 -/
  | consumeTrivia {α : Type} (k : Prog α) : Prog α
  /-- css_parse/src/parser.rs:89-93 -/
  | setSkip {α : Type} (s : KindSet) (k : KindSet → Prog α) : Prog α
  /-- css_parse/src/parser.rs:96-100 -/
  | setStop {α : Type} (s : KindSet) (k : KindSet → Prog α) : Prog α
  /-- css_parse/src/parser.rs:82-86 -/
  | setState {α : Type} (nested : Bool) (k : Bool → Prog α) : Prog α
  /-- `let checkpoint = p.checkpoint(); let r = body; if !keep(r) { p.rewind(checkpoint) }`: css_parse/src/traits/parse.rs:21-24,
  css_parse/src/traits/rules/qualified_rule.rs:47-62, css_ast/src/stylerule.rs:151-180, css_ast/src/properties/mod.rs:203-226, ... -/
  | attempt {α β : Type} (body : Prog β) (keep : Except Diag β → Bool) (k : Except Diag β → Prog α) : Prog α

namespace Prog

/-- Runs a program: its result, the parser afterwards, and (this is bookkeeping, not part of the code) the cursors that `next`
returned to it, apart from those it took back with `rewind`. -/
def runLog : {α : Type} → Prog α → Parser → Except Panic (Except Diag α × Parser × List Cursor)
  | _, ret r, p => .ok (r, p, [])
  | _, panic e, _ => .error e
  | _, read k, p => runLog (k p) p
  | _, next k, p =>
    match p.next with
    | .error e => .error e
    | .ok (c, p) => (runLog (k c) p).map (fun r => (r.1, r.2.1, c :: r.2.2))
  | _, consumeTrivia k, p =>
    match p.consumeTrivia with
    | .error e => .error e
    | .ok p => runLog k p
  | _, setSkip s k, p => runLog (k (p.setSkip s).1) (p.setSkip s).2
  | _, setStop s k, p => runLog (k (p.setStop s).1) (p.setStop s).2
  | _, setState s k, p => runLog (k (p.setState s).1) (p.setState s).2
  | _, attempt body keep k, p =>
    let checkpoint := p.checkpoint
    match runLog body p with
    | .error e => .error e
    | .ok (r, p, w) =>
      if keep r then (runLog (k r) p).map (fun x => (x.1, x.2.1, w ++ x.2.2))
      else runLog (k r) (p.rewind checkpoint)

/-- Runs a program. -/
def run {α : Type} (prog : Prog α) : ParseFn α := fun p => (prog.runLog p).map (fun r => (r.1, r.2.1))

end Prog
end Hdx
