import Verif.Model.Lex

/-!
# Specification of the token stream

Written from the rules-file description in doc.go and the comments in rlex.go, without using the lexer's state functions.
-/

namespace Sink

/-- The quoted rendition of a value: every `"` and `\` gets a backslash, and the whole is put between double quotes. -/
def quoteText (v : Str) : Str :=
  c!"\"" :: (v.flatMap fun c => if c = c!"\"" ∨ c = c!"\\" then [c!"\\", c] else [c]) ++ [c!"\""]

/-- `QuoteBody raw v`: the text `raw` between two double quotes denotes the value `v`. -/
inductive QuoteBody : Str → Str → Prop
  | nil : QuoteBody [] []
  | escaped {d r v} : d = c!"\"" ∨ d = c!"\\" → QuoteBody r v → QuoteBody (c!"\\" :: d :: r) (d :: v)
  | plain {c r v} : c ≠ c!"\"" → c ≠ c!"\\" → QuoteBody r v → QuoteBody (c :: r) (c :: v)
  | backslash {d r v} : d ≠ c!"\"" → d ≠ c!"\\" → QuoteBody (d :: r) v → QuoteBody (c!"\\" :: d :: r) (c!"\\" :: v)

/-- Text that produces no token: white space, newlines of blank or commented lines, continuations, comments. -/
inductive Gap : Str → Prop
  | nil : Gap []
  | white {c r} : c = c!" " ∨ c = c!"\t" ∨ c = c!"\n" → Gap r → Gap (c :: r)
  | continuation {r} : Gap r → Gap (c!"\\" :: c!"\n" :: r)
  | comment {t r} : (∀ c ∈ t, c ≠ c!"\n") → Gap r → Gap (c!"#" :: t ++ r)

/-- `TokText it t`: the input text `t` stands for the token `it`. -/
inductive TokText : Item → Str → Prop
  | plain {it} : it.val ≠ [] → TokText it it.val
  | quoted {v p raw} : QuoteBody raw v → TokText ⟨.value, v, p⟩ (c!"\"" :: raw ++ [c!"\""])

/-- `Tiled p text its`: `text`, which starts at offset `p` of the file, consists of the texts of the tokens `its` at their
reported positions, separated by gaps, up to the end of the text or the first error. -/
inductive Tiled : Nat → Str → List Item → Prop
  | eof {p g} : Gap g → Tiled p g [⟨.eof, [], p + g.length⟩]
  | err {p g r m} : Gap g → Tiled p (g ++ r) [⟨.error, m, p + g.length⟩]
  | tok {p g it t r its} : Gap g → it.pos = p + g.length → it.typ ≠ .error → it.typ ≠ .eof → TokText it t →
      Tiled (p + g.length + t.length) r its → Tiled p (g ++ t ++ r) (it :: its)

/-- Type and value of a token, without the position. -/
def Item.tv (i : Item) : Tok × Str := (i.typ, i.val)

/-- The token stream without positions. -/
def tokens (input : Str) : Except Panic (List (Tok × Str)) := (lex input).map (·.map Item.tv)

end Sink
