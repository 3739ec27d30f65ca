import Verif.Spec.Syntax

/-!
# Specification vocabulary: how programs are written down

The tokens of a syntax tree, and the trees that are written without ambiguity.  Nothing here refers to the parser.
-/

namespace Spec

open PythonDice.Compiler
open PythonDice.Lexer (Kind Token)

/-- A token. -/
def tok (k : Kind) (s : String) : Token := ⟨k, s.toList⟩

/-- The words that are token types of their own. -/
def keywords : List (List Char × Kind) :=
  [("d".toList, .dOp), ("output".toList, .output), ("function".toList, .function), ("loop".toList, .loop), ("over".toList, .over),
    ("named".toList, .named), ("set".toList, .set), ("to".toList, .to), ("if".toList, .if_), ("else".toList, .else_),
    ("result".toList, .result)]

/-- The type of a word. -/
def wordKind (w : List Char) : Kind := (keywords.lookup w).getD .lowername

/-- A word as a token. -/
def wordTok (w : List Char) : Token := ⟨wordKind w, w⟩

/-- A variable as a token. -/
def varTok (x : List Char) : Token := ⟨.uppername, x⟩

/-- The symbols and their texts. -/
def symbolText : List (Kind × List Char) :=
  [(.plus, "+".toList), (.minus, "-".toList), (.times, "*".toList), (.divide, "/".toList), (.power, "^".toList), (.colon, ":".toList),
    (.less, "<".toList), (.greater, ">".toList), (.equals, "=".toList), (.notequals, "!=".toList), (.at_, "@".toList),
    (.hash, "#".toList), (.or_, "|".toList), (.and_, "&".toList), (.exclamation, "!".toList), (.dot, ".".toList),
    (.doubleDot, "..".toList), (.comma, ",".toList), (.lparen, "(".toList), (.rparen, ")".toList), (.lbrace, "{".toList),
    (.rbrace, "}".toList), (.lbracket, "[".toList), (.rbracket, "]".toList)]

/-- The text of a token fits its type. -/
def TokenOK (t : Token) : Prop :=
  match t.kind with
  | .number => True
  | .uppername => True
  | .instringAny => t.value.head? ≠ some '['
  | .instringNonvar => t.value.head? = some '['
  | .instringVar => ∃ x, t.value = '[' :: x ++ [']']
  | .lowername => wordKind t.value = .lowername
  | .output | .function | .loop | .over | .named | .set | .to | .if_ | .else_ | .result | .dOp => (t.value, t.kind) ∈ keywords
  | k => (k, t.value) ∈ symbolText

/-- The tokens of a binary operator. -/
def opTokens : BinOp → List Token
  | .add => [tok .plus "+"]
  | .sub => [tok .minus "-"]
  | .mul => [tok .times "*"]
  | .div => [tok .divide "/"]
  | .pow => [tok .power "^"]
  | .at_ => [tok .at_ "@"]
  | .and_ => [tok .and_ "&"]
  | .or_ => [tok .or_ "|"]
  | .lt => [tok .less "<"]
  | .gt => [tok .greater ">"]
  | .eq => [tok .equals "="]
  | .ne => [tok .notequals "!="]
  | .le => [tok .less "<", tok .equals "="]
  | .ge => [tok .greater ">", tok .equals "="]

/-- The token of a unary operator. -/
def unTok : UnOp → Token
  | .plus => tok .plus "+"
  | .minus => tok .minus "-"
  | .not_ => tok .exclamation "!"

/-- The token of a part of a string literal. -/
def strTok : StrPart → Token
  | .text s => if s.head? = some '[' then ⟨.instringNonvar, s⟩ else ⟨.instringAny, s⟩
  | .var x => ⟨.instringVar, '[' :: x ++ [']']⟩

/-- The tokens of a string literal. -/
def strToks (ps : List StrPart) : List Token := ps.map strTok

mutual

/-- The tokens of an expression. -/
def exprToks : Expr → List Token
  | .num n => [⟨.number, n⟩]
  | .dec a b => [⟨.number, a⟩, tok .dot ".", ⟨.number, b⟩]
  | .var x => [varTok x]
  | .str ps => strToks ps
  | .group e => tok .lparen "(" :: exprToks e ++ [tok .rparen ")"]
  | .bin op l r => exprToks l ++ (opTokens op ++ exprToks r)
  | .ndm l r => exprToks l ++ tok .dOp "d" :: exprToks r
  | .dm r => tok .dOp "d" :: exprToks r
  | .unary op e => unTok op :: exprToks e
  | .hash e => tok .hash "#" :: exprToks e
  | .seq es => tok .lbrace "{" :: elemToks es ++ [tok .rbrace "}"]
  | .call cs => tok .lbracket "[" :: callToks cs ++ [tok .rbracket "]"]

/-- The tokens of the elements of a sequence, separated by commas. -/
def elemToks : Elems → List Token
  | .nil => []
  | .expr e es => exprToks e ++ moreToks es
  | .range l r es => exprToks l ++ tok .doubleDot ".." :: exprToks r ++ moreToks es

/-- The tokens of further elements. -/
def moreToks : Elems → List Token
  | .nil => []
  | .expr e es => tok .comma "," :: exprToks e ++ moreToks es
  | .range l r es => tok .comma "," :: exprToks l ++ tok .doubleDot ".." :: exprToks r ++ moreToks es

/-- The tokens of the parts of a call. -/
def callToks : CallParts → List Token
  | .nil => []
  | .word w cs => wordTok w :: callToks cs
  | .arg e cs => exprToks e ++ callToks cs

end

/-- The tokens of a part of a definition. -/
def defToks : DefPart → List Token
  | .word w => [wordTok w]
  | .param x => [varTok x]
  | .typed x t => [varTok x, tok .colon ":", wordTok t]

/-- The tokens of the name of a function. -/
def sigToks (ds : List DefPart) : List Token := ds.flatMap defToks

mutual

/-- The tokens of a statement. -/
def stmtToks : Stmt → List Token
  | .output e => tok .output "output" :: exprToks e
  | .outputNamed e n => tok .output "output" :: exprToks e ++ tok .named "named" :: strToks n
  | .set n v => tok .set "set" :: strToks n ++ tok .to "to" :: exprToks v
  | .function ds b =>
    tok .function "function" :: tok .colon ":" :: sigToks ds ++ tok .lbrace "{" :: blockToks b ++ [tok .rbrace "}"]
  | .result e => tok .result "result" :: tok .colon ":" :: exprToks e
  | .cond c b r => tok .if_ "if" :: exprToks c ++ tok .lbrace "{" :: blockToks b ++ tok .rbrace "}" :: elseToks r
  | .loop x e b =>
    tok .loop "loop" :: varTok x :: tok .over "over" :: exprToks e ++ tok .lbrace "{" :: blockToks b ++ [tok .rbrace "}"]
  | .assign x e => varTok x :: tok .colon ":" :: exprToks e

/-- The tokens of a block. -/
def blockToks : Block → List Token
  | .nil => []
  | .cons s b => stmtToks s ++ blockToks b

/-- The tokens of alternatives. -/
def elseToks : Else → List Token
  | .done => []
  | .else_ b => tok .else_ "else" :: tok .lbrace "{" :: blockToks b ++ [tok .rbrace "}"]
  | .elif c b r =>
    tok .else_ "else" :: tok .if_ "if" :: exprToks c ++ tok .lbrace "{" :: blockToks b ++ tok .rbrace "}" :: elseToks r

end

/-! ## Trees that are written without ambiguity -/

/-- The type of the first token of an expression. -/
def firstKind (e : Expr) : Option Kind := (exprToks e).head?.map Token.kind

/-- A `d` after the expression would apply to its last term. -/
def opensDie : Expr → Bool
  | .bin _ _ r => opensDie r
  | .ndm _ _ => false
  | .dm _ => false
  | _ => true

/-- The expression ends with a string literal, not in parentheses. -/
def endsLiteral : Expr → Bool
  | .str _ => true
  | .bin _ _ r => endsLiteral r
  | .ndm _ r => endsLiteral r
  | .dm r => endsLiteral r
  | .unary _ e => endsLiteral e
  | .hash e => endsLiteral e
  | _ => false

/-- The types of the tokens of string literals. -/
def literalKinds : List Kind := [.instringAny, .instringVar, .instringNonvar]

/-- After the first argument, a token of this type starts the next one: it is not read as a continuation of the first. -/
def Separate (e : Expr) (k : Option Kind) : Prop :=
  k ≠ some .plus ∧ k ≠ some .minus ∧ (opensDie e = true → k ≠ some .dOp) ∧
    (endsLiteral e = true → ∀ q ∈ literalKinds, k ≠ some q)

/-- An argument and what follows it in a call. -/
def SeparateNext (e : Expr) : CallParts → Prop
  | .arg f _ => Separate e (firstKind f)
  | _ => True

/-- A call does not start with an argument that is itself a call. -/
def FirstOK : CallParts → Prop
  | .nil => False
  | .arg (.call _) _ => False
  | _ => True

mutual

/-- The expressions as they are written: binary operators associate to the left and bind as given by `opLevel`; `d`, unary operators and
`#` apply to terms; literals are not empty; the arguments of a call are told apart. -/
def Written : Expr → Prop
  | .num _ => True
  | .dec _ _ => True
  | .var _ => True
  | .str ps => ps ≠ []
  | .group e => Written e
  | .bin op l r => opLevel op ≤ level l ∧ opLevel op < level r ∧ Written l ∧ Written r
  | .ndm l r => level l = 9 ∧ level r = 9 ∧ Written l ∧ Written r
  | .dm r => level r = 9 ∧ Written r
  | .unary _ e => level e = 9 ∧ Written e
  | .hash e => level e = 9 ∧ Written e
  | .seq es => WrittenE es
  | .call cs => FirstOK cs ∧ WrittenC cs

/-- The same of elements. -/
def WrittenE : Elems → Prop
  | .nil => True
  | .expr e es => Written e ∧ WrittenE es
  | .range l r es => Written l ∧ Written r ∧ WrittenE es

/-- The same of the parts of a call: no word is `d`. -/
def WrittenC : CallParts → Prop
  | .nil => True
  | .word w cs => w ≠ "d".toList ∧ WrittenC cs
  | .arg e cs => Written e ∧ SeparateNext e cs ∧ WrittenC cs

end

/-- The type of a parameter is `d` or a word that is not reserved. -/
def TypeOK : DefPart → Prop
  | .typed _ t => t = "d".toList ∨ wordKind t = .lowername
  | _ => True

mutual

/-- The statements as they are written. -/
def WrittenS : Stmt → Prop
  | .output e => Written e
  | .outputNamed e n => Written e ∧ n ≠ []
  | .set n v => n ≠ [] ∧ Written v
  | .function ds b => ds ≠ [] ∧ (∀ d ∈ ds, TypeOK d) ∧ WrittenB b
  | .result e => Written e
  | .cond c b r => Written c ∧ WrittenB b ∧ WrittenR r
  | .loop _ e b => Written e ∧ WrittenB b
  | .assign _ e => Written e

/-- The same of blocks. -/
def WrittenB : Block → Prop
  | .nil => True
  | .cons s b => WrittenS s ∧ WrittenB b

/-- The same of alternatives. -/
def WrittenR : Else → Prop
  | .done => True
  | .else_ b => WrittenB b
  | .elif c b r => Written c ∧ WrittenB b ∧ WrittenR r

end

end Spec
