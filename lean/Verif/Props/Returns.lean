/-
C68: parsing returns. On every source the lexer handles, every parser of the generic grammar returns a node or a diagnostic: it neither panics
nor loops for ever.
-/
import Verif.Lemmas.Returns

namespace Hdx
open Spec Prog

namespace EatsIf
variable {src : Text}

theorem componentValuesLoop {item : Prog ComponentValue} : ∀ n acc, Eats src n item → Fine src n (componentValuesLoop item n acc)
  | 0, _, _ => fun _ _ _ h => absurd h (by omega)
  | n + 1, acc, hi => by
    unfold Hdx.componentValuesLoop
    refine seq atEnd fun _ => ite (pure id) (seq nextIsStop fun _ => ite (pure id) (seq peek fun c => ite ?_ (pure id)))
    exact eat hi fun v => componentValuesLoop n _ (hi.mono (by omega))

theorem functionLoop {item : Prog ComponentValue} : ∀ n acc, Eats src n item → Fine src n (functionLoop item n acc)
  | 0, _, _ => fun _ _ _ h => absurd h (by omega)
  | n + 1, acc, hi => by
    unfold Hdx.functionLoop
    refine seq atEnd fun _ => ite (pure id) (seq peek fun c => ite (pure id) ?_)
    exact eat hi fun v => functionLoop n _ (hi.mono (by omega))

theorem functionBlock {item : Prog ComponentValue} {n : Nat} (hi : Eats src n item) : Eats src (n + 1) (functionBlock item n) := by
  unfold Hdx.functionBlock
  refine eat (tokKind (by decide)) fun name => seq (functionLoop n _ hi) fun vs => ?_
  exact seq ((tokKind (by decide)).result).fine fun _ => pure id

theorem simpleBlock {item : Prog ComponentValue} {n : Nat} (hi : Eats src n item) : Eats src (n + 1) (simpleBlock item n) := by
  unfold Hdx.simpleBlock
  refine seq offset fun start => eat (tokSet (by decide)) fun o => setStop fun stop => ?_
  refine seq (componentValuesLoop n _ hi).result.fine fun vs => setStop fun _ => ?_
  refine seq (ret (by simp)) fun vs => seq peek fun c => ite ?_ (pure id)
  exact seq ((tokSet (by decide)).result).fine fun _ => pure id

theorem componentValue : ∀ n, Eats src n (componentValue n)
  | 0 => fun _ _ _ h => absurd h (by omega)
  | n + 1 => by
    unfold Hdx.componentValue
    have ih := componentValue n
    refine seq peek fun c => seq isWs fun b => ite (eat whitespace fun _ => pure id) (ite ?_ (ite (functionBlock ih) (ite ?_ ?_)))
    · refine setState fun old => bind (simpleBlock ih).result ?_ ?_
      · rintro r ⟨a, rfl, _⟩
        exact setState fun _ => ret (by simp)
      · rintro (d | a) h
        · exact setState fun _ => err
        · exact absurd ⟨a, rfl, trivial⟩ h
    · exact eat (tokSet (by decide)) fun _ => pure id
    · exact seq take.fine fun _ => fail

theorem componentValues (n : Nat) : Fine src n (componentValues n) := componentValuesLoop n _ (componentValue n)

theorem isBangImportant {n : Nat} {c : Cursor} : Fine src n (isBangImportant c) := by
  unfold Hdx.isBangImportant
  refine ite (ask fun p cs hl => ?_) (pure id)
  obtain ⟨c, hc, hk⟩ := hl.peekN 1
  rw [hc]
  simp only
  split
  · rename_i hi
    obtain ⟨b, hb⟩ := (hk (.inl (kind_of_isKind (by decide) hi))).2.2 "important".toList
    exact ⟨b, by rw [hl.source]; exact hb, id⟩
  · exact ⟨false, rfl, id⟩

theorem bangImportant : ∀ n, Eats src n bangImportant
  | 0 => fun _ _ _ h => absurd h (by omega)
  | 1 => by
    unfold Hdx.bangImportant
    exact eat tokDelim fun _ => fun _ _ _ h => absurd h (by omega)
  | n + 2 => by
    unfold Hdx.bangImportant
    refine eat tokDelim fun bang => tokKindSeq (by decide) fun c hc hk => seq (eqCase (hk (.inl (kind_of_isKind (by decide) hc)))) fun b => ?_
    exact ite (pure id) fail

theorem isDeclaration {n : Nat} {c : Cursor} : Fine src n (isDeclaration c) := by
  unfold Hdx.isDeclaration
  exact ite (seq peekN fun _ => pure id) (pure id)

theorem declaration (n k : Nat) (h : n ≤ k) : Eats src n (declaration k) := by
  cases n with
  | zero => exact fun _ _ _ h => absurd h (by omega)
  | succ n =>
    unfold Hdx.declaration
    refine eat (tokKind (by decide)) fun name => seq (tokKind (by decide)).fine fun colon => ?_
    refine seq ((componentValues k).mono (by omega)) fun value => seq (ifPeek (fun _ _ => isBangImportant) (bangImportant n)).fine fun _ => pure id

theorem badDeclarationLoop {item : Prog ComponentValue} : ∀ n acc, Eats src n item → Fine src n (badDeclarationLoop item n acc)
  | 0, _, _ => fun _ _ _ h => absurd h (by omega)
  | n + 1, acc, hi => by
    unfold Hdx.badDeclarationLoop
    refine seq atEnd fun _ => ite (pure id) (seq peek fun c => ite (eat hi fun v => pure id) (ite ?_ ?_))
    · refine seq isNested fun _ => ite (pure id) (eat (tokKind (by decide)) fun _ => seq (hi.mono (by omega)).fine fun v => ?_)
      exact badDeclarationLoop n _ (hi.mono (by omega))
    · exact eat hi fun v => badDeclarationLoop n _ (hi.mono (by omega))

theorem badDeclaration (n : Nat) : Fine src n (badDeclaration n) := badDeclarationLoop n _ (componentValue n)

theorem qualifiedLead {n : Nat} : Fine src n qualifiedLead := by
  unfold Hdx.qualifiedLead
  refine seq peek fun c => ite (seq (tok (g := isDashed) fun c h => ?_).result.fine fun _ => seq peek fun c => ?_) (pure id)
  · simp only [isDashed, Bool.and_eq_true] at h
    exact isKind_notEof (by decide) h.1
  · exact ite (seq isNested fun _ => ite (pure id) (pure id)) (pure id)

theorem qualifiedRule {α β γ : Type} {prelude : Prog α} {block : Prog β} {bad : Prog γ} {n : Nat} (hp : Fine src n prelude) (hb : Eats src n block)
    (hbad : Fine src n bad) : Eats src n (qualifiedRule prelude block bad) := by
  cases n with
  | zero => exact fun _ _ _ h => absurd h (by omega)
  | succ n =>
  unfold Hdx.qualifiedRule
  refine seq atEnd fun _ => ite ofErr (seq isNested fun _ => seq peek fun c => ite (seq peekN fun _ => fail) ?_)
  refine seq (ask fun p cs hl => ⟨_, rfl, id⟩) fun cp => attempt qualifiedLead (fun lead _ => ?_) (fun _ h => h.elim)
  refine seq (ret (by simp)) fun l => ?_
  split
  · exact seq hbad fun _ => fail
  · exact seq hb.result.fine fun _ => fail
  · refine setStop fun old => seq hp.result.fine fun pre => setStop fun _ => seq (ret (by simp)) fun pre => ?_
    exact eat hb fun _ => pure id

theorem atRule {α β : Type} {name : Option (List Char)} {prelude : Prog α} {block : Prog β} {n : Nat} (hp : Fine src n prelude) (hb : Fine src n block) :
    Eats src (n + 1) (atRule name prelude block) := by
  unfold Hdx.atRule
  refine tokKindSeq (by decide) fun c hc hk => ?_
  have tail : ∀ b : Bool, Fine src n (if !b then Prog.fail .other c else do
    let c' ← Prog.peek
    let e ← Prog.atEnd
    let pre ← if e || c'.token.inSet KindSet.LEFT_CURLY_OR_SEMICOLON then Pure.pure none else do
      let a ← prelude
      Pure.pure (some a)
    let b ← block
    Pure.pure (c, pre, b)) := by
    intro b
    refine ite fail (seq peek fun c' => seq atEnd fun e => ?_)
    split
    · exact seq (pure id) fun pre => seq hb fun _ => pure id
    · exact seq hp fun _ => seq (pure id) fun pre => seq hb fun _ => pure id
  cases name with
  | some nm => exact seq (eqCase (hk (.inr (.inr (.inl (kind_of_isKind (by decide) hc)))))) tail
  | none => exact seq (pure id) tail

theorem kindOpt {n : Nat} {k : Kind} (hk : k ≠ .eof) : EatsIf src n (fun o => o.isSome = true) (Prog.ifPeek (Prog.isKind k) (Prog.tok (Prog.isKind k))) :=
  (ifPeek (fun _ _ => isKind) (tokKind hk)).weaken fun o h => ⟨o.get h, by simp, trivial⟩
theorem wsOpt {n : Nat} : EatsIf src n (fun o => o.isSome = true) (Prog.ifPeek Prog.isWs Prog.whitespace) :=
  (ifPeek (fun _ _ => isWs) whitespace).weaken fun o h => ⟨o.get h, by simp, trivial⟩

theorem blockLoop {δ ρ : Type} {isDecl : Cursor → Prog Bool} {decl : Prog δ} {rule : Prog ρ} (n : Nat) (hi : ∀ c, Known src c → Fine src n (isDecl c))
    (hd : Eats src n decl) (hr : Eats src n rule) : ∀ m k ds rs, m ≤ n → m ≤ k → Fine src m (blockLoop isDecl decl rule k ds rs)
  | 0, k, _, _, _, _ => fun _ _ _ h => absurd h (by omega)
  | m + 1, 0, _, _, _, h => absurd h (by omega)
  | m + 1, k + 1, ds, rs, h1, h2 => by
    have ih := fun ds rs => blockLoop n hi hd hr m k ds rs (by omega) (by omega)
    unfold Hdx.blockLoop
    refine bind wsOpt (fun o h => ?_) (fun o h => ?_)
    · rw [if_pos h]; exact ih ds rs
    rw [if_neg h]
    refine bind (kindOpt (by decide)) (fun o h => ?_) (fun o h => ?_)
    · rw [if_pos h]; exact ih ds rs
    rw [if_neg h]
    refine seq atEnd fun _ => ite (pure id) (seq peek fun c => ite (pure id) (setState fun old => seq peek fun c => ?_))
    have fin : Fine src (m + 1) (Prog.result rule >>= fun r => Prog.setState old fun _ => (Prog.ofResult r >>= fun r => Hdx.blockLoop isDecl decl rule k ds (rs ++ [r]))) := by
      refine bind (hr.mono h1).result ?_ ?_
      · rintro r ⟨a, rfl, _⟩
        exact setState fun _ => seq (ret (by simp)) fun _ => ih _ _
      · rintro (d | a) h
        · exact setState fun _ => err
        · exact absurd ⟨a, rfl, trivial⟩ h
    refine ite fin ?_
    refine bind (ifPeek (fun c hc => (hi c hc).mono h1) (hd.mono h1).tryParse).result ?_ ?_
    · rintro r ⟨a, rfl, b, rfl, _⟩
      exact setState fun _ => seq (kindOpt (by decide)).fine fun _ => ih _ _
    · intro r h
      split
      · rename_i d
        exact absurd ⟨_, rfl, d, rfl, trivial⟩ h
      · exact fin

theorem blockOf {δ ρ : Type} {isDecl : Cursor → Prog Bool} {decl : Prog δ} {rule : Prog ρ} (n k : Nat) (h : n ≤ k) (hi : ∀ c, Known src c → Fine src n (isDecl c))
    (hd : Eats src n decl) (hr : Eats src n rule) : Eats src (n + 1) (blockOf isDecl decl rule k) := by
  unfold Hdx.blockOf
  refine eat (tokKind (by decide)) fun o => seq (blockLoop n hi hd hr n k _ _ (Nat.le_refl _) h) fun x => ?_
  obtain ⟨ds, rs⟩ := x
  exact seq (kindOpt (by decide)).fine fun _ => pure id

theorem block {rule : Prog Rule} (n k : Nat) (h : n ≤ k) (hr : Eats src n rule) : Eats src (n + 1) (block rule k) := by
  unfold Hdx.block
  exact seq offset fun _ => eat (blockOf n k h (fun _ _ => isDeclaration) (declaration n k h) hr) fun _ => pure id

theorem optionalBlock {rule : Prog Rule} (n k : Nat) (h : n ≤ k) (hr : Eats src n rule) : Fine src (n + 1) (optionalBlock rule k) := by
  unfold Hdx.optionalBlock
  refine seq (ifPeek (fun _ _ => isKind) (block n k h hr)).fine fun b => ?_
  split
  · exact pure id
  · exact seq (kindOpt (by decide)).fine fun _ => pure id

theorem genericAtRule {rule : Prog Rule} (n k : Nat) (h : n ≤ k) (hr : Eats src n rule) : Eats src (n + 1) (genericAtRule rule k) := by
  unfold Hdx.genericAtRule
  refine setStop fun stop => bind (atRule ((componentValues k).mono h) ((optionalBlock n k h hr).mono (by omega))).result ?_ ?_
  · rintro r ⟨⟨nm, pre, b⟩, rfl, _⟩
    refine setStop fun _ => seq (ret (by simp)) fun ⟨nm, pre, b⟩ => seq (kindOpt (by decide)).fine fun _ => ?_
    cases b <;> exact pure id
  · rintro (d | a) h
    · exact setStop fun _ => err
    · exact absurd ⟨a, rfl, trivial⟩ h

theorem genericQualifiedRule {rule : Prog Rule} (n k : Nat) (h : n + 1 ≤ k) (hr : Eats src n rule) : Eats src (n + 1) (genericQualifiedRule rule k) := by
  unfold Hdx.genericQualifiedRule
  refine eat (qualifiedRule ((componentValues k).mono h) (block n k (by omega) hr) ((badDeclaration k).mono h)) ?_
  rintro ⟨pre, start, b⟩
  exact pure id

theorem rule : ∀ n, Eats src n (rule n)
  | 0 => fun _ _ _ h => absurd h (by omega)
  | n + 1 => by
    unfold Hdx.rule
    exact seq peek fun c => ite (genericAtRule n _ (by omega) (rule n)) (genericQualifiedRule n _ (by omega) (rule n))

theorem styleSheetLoop {ρ : Type} {rule : Prog ρ} : ∀ n acc, Eats src n rule → Fine src n (styleSheetLoop rule n acc)
  | 0, _, _ => fun _ _ _ h => absurd h (by omega)
  | n + 1, acc, hr => by
    have ih := fun acc => styleSheetLoop n acc (hr.mono (by omega))
    unfold Hdx.styleSheetLoop
    refine bind wsOpt (fun o h => ?_) (fun o h => ?_)
    · rw [if_pos h]; exact ih _
    rw [if_neg h]
    refine bind (kindOpt (by decide)) (fun o h => ?_) (fun o h => ?_)
    · rw [if_pos h]; exact ih _
    rw [if_neg h]
    exact seq atEnd fun _ => ite (pure id) (seq peek fun c => ite (pure id) (eat hr fun _ => ih _))

end EatsIf

namespace Spec

/-- `x` comes to an end on `p`: with a node or with a diagnostic, but with no panic and no endless loop. -/
def ComesToEnd {α : Type} (x : Prog α) (p : Parser) : Prop := ∃ r p', x.run p = .ok (r, p')

/-- `p` is somewhere between the tokens of a source the lexer handles, and does not skip the end of the file. -/
structure Ready (p : Parser) : Prop where
  before : ∃ x, p.lexer.Before x
  tame : Tame p.lexer.features p.lexer.source
  skip : p.skip.contains .eof = false

end Spec

/-- What makes the text of every token readable, and keeps css_ast away from its unfinished parsers. -/
structure Spec.Quiet (l : Lexer) (cs : List Cursor) : Prop where
  single : l.features.singleLineComments = false
  urls : ShortUrls l.source
  closed : ∀ c ∈ cs, ∀ pre body, l.source = pre ++ '/' :: '*' :: body → c.offset = byteLen pre → ¬ NoClose body
  calm : ∀ c ∈ cs, Calm c l.source

theorem Spec.ShortUrls.suffix {pre x : List Char} (h : ShortUrls (pre ++ x)) : ShortUrls x where
  leading a us ws post e h1 h2 := h.leading (pre ++ a) us ws post (by rw [e]; simp) h1 h2
  trailing a ws post e h1 := h.trailing (pre ++ a) ws post (by rw [e]; simp) h1

theorem known_of_stream {l : Lexer} {cs : List Cursor} (h : Stream l cs) {x : List Char} (hb : l.Before x) (ht : Tame l.features l.source) {strict : Bool}
    (hq : strict = true → Quiet l cs) : ∀ c ∈ cs, Known ⟨l.source, strict⟩ c := by
  induction h generalizing x with
  | nil => simp
  | @cons l l' t cs ha hk hz h ih =>
    obtain ⟨pre, hp1, hp2⟩ := hb
    have hb : l.Before x := ⟨pre, hp1, hp2⟩
    have hne : x ≠ [] := by
      rintro rfl
      rw [advance_before hb, if_pos rfl] at ha
      cases ha; cases hk
    have htx : Tame l.features x := by rw [hp1] at ht; exact ht.suffix
    obtain ⟨t', l2, text, cs', a1, a2, a3, a4, a5, a6, a7⟩ := advance_tame hb htx hne
    rw [ha] at a1; cases a1
    have hs : l'.source = l.source := (advance_keeps ha).1
    have hf : l'.features = l.features := by rw [a6]
    intro c hc
    rcases List.mem_cons.mp hc with rfl | hc
    · refine ⟨fun hk => ?_, fun hst => ?_, fun hst => (hq hst).calm _ (by simp),
        fun _ => by show ∃ s, (Cursor.mk l.offset t).strSlice l.source = .ok s; rw [hp2]; exact strSlice_of_text (text := text) (post := cs') (by rw [hp1, a3]) a5⟩
      · have hor : (t.kind = .ident ∨ t.kind = .function ∨ t.kind = .atKeyword ∨ t.kind = .hash ∨ t.kind = .number ∨ t.kind = .dimension) ∨ t.kind = .colon := by
          rcases hk with h | h | h | h | h | h | h <;> simp [show t.kind = _ from h]
        rcases hor with h | h
        · exact C67_decodable_partial hb ht ha h
        · exact C67_punctuation_partial hb ht ha (by rw [h]; decide)
      · have q := hq hst
        refine C67_readable_partial hb ht ha q.single (by have := q.urls; rw [hp1] at this; exact this.suffix) fun body e => ?_
        exact q.closed _ (List.mem_cons_self ..) pre body (by rw [hp1, e]) hp2
    · have := ih a7 (by rw [hs, hf]; exact ht) (fun hst => by
        have q := hq hst
        exact ⟨by rw [hf]; exact q.single, by rw [hs]; exact q.urls, fun c hc pre body e => q.closed c (List.mem_cons_of_mem _ hc) pre body (by rw [← hs]; exact e),
          fun c hc => by rw [hs]; exact q.calm c (List.mem_cons_of_mem _ hc)⟩) c hc
      rw [hs] at this; exact this

theorem Spec.Ready.leftIn {p : Parser} (h : Ready p) {strict : Bool} (hd : strict = true → p.skip.contains .delim = false)
    (hq : strict = true → ∀ cs, Stream p.lexer cs → Quiet p.lexer cs) : ∃ cs, Left ⟨p.lexer.source, strict⟩ p cs ∧ cs.length + 1 < p.fuel := by
  obtain ⟨⟨x, hb⟩, ht, hs⟩ := h
  have hb' := hb
  obtain ⟨pre, hp1, hp2⟩ := hb
  have htx : Tame p.lexer.features x := by rw [hp1] at ht; exact ht.suffix
  obtain ⟨cs, h1, h2⟩ := Stream.of_tame x.length (Nat.le_refl _) hb' htx
  refine ⟨cs, ⟨rfl, h1, ⟨hs, hd⟩, known_of_stream h1 hb' ht (fun h => hq h cs h1)⟩, ?_⟩
  have hl : ∀ y : List Char, y.length ≤ utf8Len y := fun y => by
    induction y with
    | nil => simp
    | cons c y ih => have := Char.utf8Size_pos c; rw [utf8Len_cons]; simp; omega
  have h3 := hl x
  have h4 : utf8Len p.lexer.source = utf8Len pre + utf8Len x := by rw [hp1, utf8Len_append]
  unfold Parser.fuel; omega

theorem Spec.Ready.left {p : Parser} (h : Ready p) : ∃ cs, Left p.lexer.source p cs ∧ cs.length + 1 < p.fuel :=
  h.leftIn (fun h => by cases h) (fun h => by cases h)

/-- A new parser is ready. -/
theorem ready_new {src : List Char} {f : Features} (h : Tame f src) : Ready (Parser.newWithFeatures src f) :=
  ⟨⟨src, before_new src f⟩, h, (by decide : KindSet.TRIVIA.contains .eof = false)⟩

theorem EatsIf.returnsFrom {α : Type} {P : α → Prop} {x : Prog α} {p : Parser} {src : Text} {cs : List Cursor} (hl : Left src p cs) (hlen : cs.length + 1 < p.fuel)
    (hx : EatsIf src p.fuel P x) : ∃ r p' cs, x.run p = .ok (r, p') ∧ Left src p' cs ∧ cs.length + 1 < p.fuel := by
  obtain ⟨r, p', w, cs', h1, h2, h3, _⟩ := hx hl (by omega)
  have := h3.length_le
  refine ⟨r, p', cs', ?_, h2, by omega⟩
  unfold Prog.run
  rw [show x.runLog p = .ok (r, p', w) from h1]
  rfl

theorem EatsIf.returns {α : Type} {P : α → Prop} {x : Prog α} {p : Parser} (hr : Ready p) (hx : EatsIf p.lexer.source p.fuel P x) :
    ∃ r p' cs, x.run p = .ok (r, p') ∧ Left p.lexer.source p' cs ∧ cs.length + 1 < p.fuel := by
  obtain ⟨cs, hl, hlen⟩ := hr.left
  exact hx.returnsFrom hl hlen

theorem drainLoop_returns {src : Text} : ∀ (n : Nat) {p : Parser} {cs : List Cursor}, Left src p cs → cs.length < n → ∃ p', Parser.drainLoop n p = .ok p'
  | 0, _, _, _, h => absurd h (by omega)
  | n + 1, p, cs, hl, h => by
    obtain ⟨c, p', cs', h1, h2, h3, _, h4, _⟩ := hl.next
    unfold Parser.drainLoop
    rw [h1]
    simp only
    split
    · exact ⟨_, rfl⟩
    · rename_i hk
      have := (h4 (by simpa using hk)).1
      exact drainLoop_returns n (h2.congr rfl rfl) (by omega)

theorem EatsIf.parseEntirelyFrom {α : Type} {P : α → Prop} {x : Prog α} {g : ParseFn α} {p : Parser} {src : Text} {cs : List Cursor} (hl : Left src p cs) (hlen : cs.length + 1 < p.fuel) (hg : g p = x.run p)
    (hx : EatsIf src p.fuel P x) : ∃ r l, Parser.parseEntirely g p = .ok (r, l) := by
  have hsrc := hl.source
  obtain ⟨r, p', cs, h1, h2, h3⟩ := hx.returnsFrom hl hlen
  clear hl
  unfold Parser.parseEntirely
  rw [hg, h1]
  simp only
  have hl : Left src (Parser.settle r p').2 cs := by
    cases r <;> exact h2.congr rfl rfl
  generalize (Parser.settle r p').2 = q at hl
  split
  · exact ⟨_, _, rfl⟩
  · obtain ⟨c, hc, _⟩ := hl.peek
    rw [hc]
    simp only
    split
    · exact ⟨_, _, rfl⟩
    · obtain ⟨q', hq⟩ := drainLoop_returns (utf8Len q.lexer.source + 2) hl (by
        rw [hl.source, ← hsrc]; unfold Parser.fuel at h3; show cs.length < utf8Len p.lexer.source + 2; omega)
      rw [hq]
      exact ⟨_, _, rfl⟩

theorem EatsIf.parseEntirely {α : Type} {P : α → Prop} {x : Prog α} {g : ParseFn α} {p : Parser} (hr : Ready p) (hg : g p = x.run p)
    (hx : EatsIf p.lexer.source p.fuel P x) : ∃ r l, Parser.parseEntirely g p = .ok (r, l) := by
  obtain ⟨cs, hl, hlen⟩ := hr.left
  exact hx.parseEntirelyFrom hl hlen hg

theorem styleSheet_returns {p : Parser} : Fine p.lexer.source p.fuel (styleSheetLoop (rule p.fuel) p.fuel []) := EatsIf.styleSheetLoop _ _ (EatsIf.rule _)

theorem styleSheet_run (p : Parser) : styleSheet.run p = (styleSheetLoop (rule p.fuel) p.fuel []).run p := by
  unfold Prog.run
  rw [styleSheet, Prog.runLog]

/-- Component values, wherever in a source they are parsed. -/
theorem C68_componentValues_partial {p : Parser} (h : Ready p) : ComesToEnd (componentValues p.fuel) p := by
  obtain ⟨r, p', _, h, _⟩ := (EatsIf.componentValues p.fuel).returns h; exact ⟨r, p', h⟩
/-- A declaration. -/
theorem C68_declaration_partial {p : Parser} (h : Ready p) : ComesToEnd (declaration p.fuel) p := by
  obtain ⟨r, p', _, h, _⟩ := (EatsIf.declaration p.fuel p.fuel (Nat.le_refl _)).returns h; exact ⟨r, p', h⟩
/-- A rule, with everything nested in it. -/
theorem C68_rule_partial {p : Parser} (h : Ready p) : ComesToEnd (rule p.fuel) p := by
  obtain ⟨r, p', _, h, _⟩ := (EatsIf.rule p.fuel).returns h; exact ⟨r, p', h⟩
/-- A style sheet. -/
theorem C68_styleSheet_partial {p : Parser} (h : Ready p) : ComesToEnd styleSheet p := by
  obtain ⟨r, p', _, h, _⟩ := styleSheet_returns.returns h; exact ⟨r, p', by rw [styleSheet_run]; exact h⟩
/-- Parsing a whole source as a style sheet: `Parser::new(..).parse_entirely::<StyleSheet>()`. Missing from the full C68: sources outside
`Tame`, on which the lexer itself panics or loses its place (`C01_counterexample`, `C22_counterexample`). -/
theorem C68_entirely_partial {src : List Char} {f : Features} (h : Tame f src) :
    ∃ r l, Parser.parseEntirely styleSheet.run (Parser.newWithFeatures src f) = .ok (r, l) := by
  have hr := ready_new h
  generalize Parser.newWithFeatures src f = p at hr
  exact EatsIf.parseEntirely hr (styleSheet_run p) styleSheet_returns

end Hdx
