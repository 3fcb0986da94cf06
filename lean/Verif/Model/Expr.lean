import Verif.Model.Index
/-
Model of the expression parser: crates/rudy-parser/src/expressions.rs.

The tokenizer keeps a position that counts characters (`current_char` is `chars().nth(position)`) and
uses the same number as a byte position when it slices the text, so the model keeps both views: the
characters of the text, and slicing by UTF-8 byte offsets, which panics off a character boundary.
-/
namespace Rudy.Expr
open Rudy Rudy.Data Rudy.Layout

/-- Models `Expression`, expressions.rs:14-66. -/
inductive Expr where
  | var (name : Str)
  | path (segments : List Str)
  | generic (base : Str) (args : List Str)
  | field (base : Expr) (name : Str)
  | index (base index : Expr)
  | deref (e : Expr)
  | addrOf (mutable : Bool) (e : Expr)
  | num (n : Nat)
  | str (s : Str)
  | paren (e : Expr)
  | method (base : Expr) (name : Str) (args : List Expr)
  | call (function : Str) (args : List Expr)
deriving Repr

/-- `slice::join` / `Itertools::join` with a separator (standard library, itertools). -/
def joinWith (sep : Str) : List Str → Str
  | [] => []
  | [s] => s
  | s :: t :: r => s ++ sep ++ joinWith sep (t :: r)

mutual
/-- Models `<Expression as Display>::fmt`, expressions.rs:68-95. -/
def Expr.print : Expr → Str
  | .var n => n
  | .path ss => joinWith (chars! "::") ss
  | .generic b args => b ++ chars! "<" ++ joinWith (chars! ", ") args ++ chars! ">"
  | .field b f => b.print ++ chars! "." ++ f
  | .index b i => b.print ++ chars! "[" ++ i.print ++ chars! "]"
  | .deref e => chars! "*" ++ e.print
  | .addrOf true e => chars! "&mut " ++ e.print
  | .addrOf false e => chars! "&" ++ e.print
  | .num n => natStr n
  | .str s => chars! "\"" ++ s ++ chars! "\""
  | .paren e => chars! "(" ++ e.print ++ chars! ")"
  | .method b m args => b.print ++ chars! "." ++ m ++ chars! "(" ++ joinWith (chars! ", ") (printAll args) ++ chars! ")"
  | .call f args => f ++ chars! "(" ++ joinWith (chars! ", ") (printAll args) ++ chars! ")"

/-- The printed arguments of a call, expressions.rs:88, 91. -/
def printAll : List Expr → List Str
  | [] => []
  | e :: es => e.print :: printAll es
end

/-- Models `Token`, expressions.rs:99-124. -/
inductive Token where
  | ident (s : Str)
  | number (n : Nat)
  | string (s : Str)
  | dot | star | amp | lbracket | rbracket | lparen | rparen | langle | rangle | pathSep | comma | mut | eof
deriving DecidableEq, Repr

/-! ### Tokenizer -/

/-- `str::len`: the number of UTF-8 bytes (standard library). -/
def byteLen : Str → Nat
  | [] => 0
  | c :: cs => c.utf8Size + byteLen cs

/-- `s[n..]`, `none` off a character boundary (standard library). -/
def dropBytes : Nat → Str → Option Str
  | 0, s => some s
  | _ + 1, [] => none
  | n + 1, c :: cs => if c.utf8Size ≤ n + 1 then dropBytes (n + 1 - c.utf8Size) cs else none

/-- `s[..n]`, `none` off a character boundary (standard library). -/
def takeBytes : Nat → Str → Option Str
  | 0, _ => some []
  | _ + 1, [] => none
  | n + 1, c :: cs => if c.utf8Size ≤ n + 1 then (takeBytes (n + 1 - c.utf8Size) cs).map (c :: ·) else none

/-- `s[a..]`; panics off a character boundary (standard library). -/
def sliceFrom (s : Str) (a : Nat) : Res Str :=
  match dropBytes a s with
  | some r => .ok r
  | none => .panic

/-- `s[a..b]`; panics off a character boundary or if `a > b` (standard library). -/
def slice (s : Str) (a b : Nat) : Res Str :=
  if a > b then .panic
  else (sliceFrom s a).bind fun r => match takeBytes (b - a) r with
    | some t => .ok t
    | none => .panic

/-- `char::is_whitespace` (standard library): the Unicode property White_Space. -/
def isWhite (c : Char) : Bool :=
  let n := c.toNat
  (9 ≤ n && n ≤ 13) || n == 32 || n == 0x85 || n == 0xA0 || n == 0x1680 || (0x2000 ≤ n && n ≤ 0x200A)
    || n == 0x2028 || n == 0x2029 || n == 0x202F || n == 0x205F || n == 0x3000

/-- `char::is_ascii_digit` (standard library). -/
def isDigit (c : Char) : Bool := '0' ≤ c && c ≤ '9'

/-- `char::is_ascii_hexdigit` (standard library). -/
def isHex (c : Char) : Bool := isDigit c || ('a' ≤ c && c ≤ 'f') || ('A' ≤ c && c ≤ 'F')

/-- `char::is_ascii_alphabetic` (standard library). -/
def isAlpha (c : Char) : Bool := ('a' ≤ c && c ≤ 'z') || ('A' ≤ c && c ≤ 'Z')

/-- The characters of an identifier, expressions.rs:159. -/
def isWord (c : Char) : Bool := isAlpha c || isDigit c || c == '_'

/-- Models `Tokenizer::advance`, expressions.rs:140-144. -/
def advance (s : Str) (p : Nat) : Nat := if p < byteLen s then p + 1 else p

/-- The loop `while let Some(ch) = self.current_char() { if f(ch) { self.advance() } else { break } }` of
expressions.rs:147-153, 158-164, 177-183, 188-194. Simplification: `advance` is `+ 1` here, because a
current character exists and there are at least as many bytes as characters. -/
def scanWhile (s : Str) (f : Char → Bool) (p : Nat) : Nat := p + ((s.drop p).takeWhile f).length

/-- Models `Tokenizer::read_identifier`, expressions.rs:156-166. -/
def readIdent (s : Str) (p : Nat) : Res (Str × Nat) :=
  let q := scanWhile s isWord p
  (slice s p q).bind fun t => .ok (t, q)

/-- `str::starts_with` (standard library). -/
def startsWith (pre s : Str) : Bool := pre.isPrefixOf s

/-- Models `Tokenizer::read_number`, expressions.rs:168-199. -/
def readNumber (s : Str) (p : Nat) : Res (Nat × Nat) :=
  (sliceFrom s p).bind fun t =>
  if startsWith (chars! "0x") t || startsWith (chars! "0X") t then
    let q := scanWhile s isHex (advance s (advance s p))
    (slice s (p + 2) q).bind fun h => (Res.ofOption (parseU64 16 h)).bind fun n => .ok (n, q)
  else
    let q := scanWhile s isDigit p
    (slice s p q).bind fun d => (Res.ofOption (parseU64 10 d)).bind fun n => .ok (n, q)

/-- The search for the closing quote in `read_string`, expressions.rs:206-221, on the characters after
the position `p`; same simplification as `scanWhile`. -/
def closingQuote : Str → Nat → Option Nat
  | [], _ => none
  | '"' :: _, p => some p
  | '\\' :: [], _ => none
  | '\\' :: _ :: r, p => closingQuote r (p + 2)
  | _ :: r, p => closingQuote r (p + 1)

/-- Models `Tokenizer::read_string`, expressions.rs:201-224. -/
def readString (s : Str) (p : Nat) : Res (Str × Nat) :=
  let start := advance s p
  match closingQuote (s.drop start) start with
  | some q => (slice s start q).bind fun t => .ok (t, advance s q)
  | none => .err

/-- Models the token starting at a position in `Tokenizer::next_token`, expressions.rs:229-297. -/
def tokenAt (s : Str) (p : Nat) : Res (Token × Nat) :=
  match s[p]? with
  | none => .ok (.eof, p)
  | some c =>
    if c = '.' then .ok (.dot, advance s p)
    else if c = '*' then .ok (.star, advance s p)
    else if c = '&' then .ok (.amp, advance s p)
    else if c = '[' then .ok (.lbracket, advance s p)
    else if c = ']' then .ok (.rbracket, advance s p)
    else if c = '(' then .ok (.lparen, advance s p)
    else if c = ')' then .ok (.rparen, advance s p)
    else if c = '<' then .ok (.langle, advance s p)
    else if c = '>' then .ok (.rangle, advance s p)
    else if c = ':' then
      let q := advance s p
      if s[q]? = some ':' then .ok (.pathSep, advance s q) else .err
    else if c = ',' then .ok (.comma, advance s p)
    else if isAlpha c || c == '_' then
      (readIdent s p).bind fun (i, q) => .ok (if i = chars! "mut" then .mut else .ident i, q)
    else if isDigit c then (readNumber s p).bind fun (n, q) => .ok (.number n, q)
    else if c = '"' then (readString s p).bind fun (t, q) => .ok (.string t, q)
    else .err

/-- Models `Tokenizer::next_token`, expressions.rs:226-298, with `skip_whitespace` (146-154). -/
def nextToken (s : Str) (p : Nat) : Res (Token × Nat) := tokenAt s (scanWhile s isWhite p)

/-- Models the loop of `Parser::new`, expressions.rs:312-319. `fuel` bounds the number of tokens; running
out of it is `panic` (`tokens_fuel` shows it cannot happen with one more than the number of characters). -/
def tokens (s : Str) : (fuel : Nat) → (p : Nat) → Res (List Token)
  | 0, _ => .panic
  | n + 1, p => (nextToken s p).bind fun (t, q) =>
    if t = .eof then .ok [.eof] else (tokens s n q).bind fun ts => .ok (t :: ts)

/-- Models `Parser::new`, expressions.rs:308-325. -/
def tokenize (s : Str) : Res (List Token) := tokens s (s.length + 1) 0

/-! ### Parser

The parser state is the list of the tokens not yet consumed; past its end the current token is `Eof`
(expressions.rs:327-335). -/

/-- Models `Parser::expect`, expressions.rs:337-348 (only ever called with tokens without payload, for
which equality of discriminants is equality). -/
def expect (t : Token) : List Token → Res (List Token)
  | u :: r => if u = t then .ok r else .err
  | [] => if t = .eof then .ok [] else .err

/-- Models the loops collecting `::`-separated segments, expressions.rs:436-444 and 553-561. -/
def pathLoop : List Token → Res (List Str × List Token)
  | .pathSep :: .ident s :: r => (pathLoop r).bind fun (ss, r) => .ok (s :: ss, r)
  | .pathSep :: _ => .err
  | ts => .ok ([], ts)

mutual
/-- Models `Parser::parse_type_name`, expressions.rs:541-576. `fuel` bounds the nesting; running out of it
is `panic`, here and below. -/
def parseTypeName : (fuel : Nat) → List Token → Res (Str × List Token)
  | 0, _ => .panic
  | n + 1, ts => match ts with
    | .ident s :: ts =>
      (pathLoop ts).bind fun (ss, ts) =>
      let name := joinWith (chars! "::") (s :: ss)
      match ts with
      | .langle :: r =>
        (parseTypeArgs n r).bind fun (args, r) => (expect .rangle r).bind fun r =>
        .ok (name ++ chars! "<" ++ joinWith (chars! ", ") args ++ chars! ">", r)
      | _ => .ok (name, ts)
    | _ => .err

/-- Models `Parser::parse_type_arguments`, expressions.rs:521-539. -/
def parseTypeArgs : (fuel : Nat) → List Token → Res (List Str × List Token)
  | 0, _ => .panic
  | n + 1, ts => match ts with
    | .rangle :: r => .ok ([], .rangle :: r)
    | ts => (parseTypeName n ts).bind fun (a, ts) => (typeArgsLoop n ts).bind fun (as, ts) => .ok (a :: as, ts)

/-- The loop of `parse_type_arguments`, expressions.rs:533-536. -/
def typeArgsLoop : (fuel : Nat) → List Token → Res (List Str × List Token)
  | 0, _ => .panic
  | n + 1, ts => match ts with
    | .comma :: r =>
      (parseTypeName n r).bind fun (a, ts) => (typeArgsLoop n ts).bind fun (as, ts) => .ok (a :: as, ts)
    | ts => .ok ([], ts)
end

mutual
/-- Models `Parser::parse_unary` (= `parse_expression`), expressions.rs:354-379. -/
def parseUnary : (fuel : Nat) → List Token → Res (Expr × List Token)
  | 0, _ => .panic
  | n + 1, ts => match ts with
    | .star :: r => (parseUnary n r).bind fun (e, r) => .ok (.deref e, r)
    | .amp :: .mut :: r => (parseUnary n r).bind fun (e, r) => .ok (.addrOf true e, r)
    | .amp :: r => (parseUnary n r).bind fun (e, r) => .ok (.addrOf false e, r)
    | ts => parsePostfix n ts

/-- Models `Parser::parse_postfix`, expressions.rs:381-426. -/
def parsePostfix : (fuel : Nat) → List Token → Res (Expr × List Token)
  | 0, _ => .panic
  | n + 1, ts => (parsePrimary n ts).bind fun (e, r) => postfixLoop n e r

/-- The loop of `parse_postfix`, expressions.rs:384-423. -/
def postfixLoop : (fuel : Nat) → Expr → List Token → Res (Expr × List Token)
  | 0, _, _ => .panic
  | n + 1, e, ts => match ts with
    | .dot :: .ident f :: .lparen :: r =>
      (parseArgs n r).bind fun (args, r) => (expect .rparen r).bind fun r => postfixLoop n (.method e f args) r
    | .dot :: .ident f :: r => postfixLoop n (.field e f) r
    | .dot :: _ => .err
    | .lbracket :: r =>
      (parseUnary n r).bind fun (i, r) => (expect .rbracket r).bind fun r => postfixLoop n (.index e i) r
    | ts => .ok (e, ts)

/-- Models `Parser::parse_primary`, expressions.rs:428-499. -/
def parsePrimary : (fuel : Nat) → List Token → Res (Expr × List Token)
  | 0, _ => .panic
  | n + 1, ts => match ts with
    | .ident s :: ts =>
      (pathLoop ts).bind fun (ss, ts) =>
      match ts with
      | .langle :: r =>
        (parseTypeArgs n r).bind fun (args, r) => (expect .rangle r).bind fun r =>
        .ok (.generic (joinWith (chars! "::") (s :: ss)) args, r)
      | .lparen :: r =>
        (parseArgs n r).bind fun (args, r) => (expect .rparen r).bind fun r =>
        .ok (.call (joinWith (chars! "::") (s :: ss)) args, r)
      | _ => .ok (match ss with | [] => .var s | _ => .path (s :: ss), ts)
    | .number v :: ts => .ok (.num v, ts)
    | .string v :: ts => .ok (.str v, ts)
    | .lparen :: ts =>
      (parseUnary n ts).bind fun (e, r) => (expect .rparen r).bind fun r => .ok (.paren e, r)
    | _ => .err

/-- Models `Parser::parse_arguments`, expressions.rs:501-519. -/
def parseArgs : (fuel : Nat) → List Token → Res (List Expr × List Token)
  | 0, _ => .panic
  | n + 1, ts => match ts with
    | .rparen :: r => .ok ([], .rparen :: r)
    | ts => (parseUnary n ts).bind fun (a, ts) => (argsLoop n ts).bind fun (as, ts) => .ok (a :: as, ts)

/-- The loop of `parse_arguments`, expressions.rs:513-516. -/
def argsLoop : (fuel : Nat) → List Token → Res (List Expr × List Token)
  | 0, _ => .panic
  | n + 1, ts => match ts with
    | .comma :: r =>
      (parseUnary n r).bind fun (a, ts) => (argsLoop n ts).bind fun (as, ts) => .ok (a :: as, ts)
    | ts => .ok ([], ts)
end

/-- The nesting that suffices for a number of tokens (`parse_fuel`). -/
def parserFuel (n : Nat) : Nat := 4 * n + 4

/-- Models `Parser::parse`, expressions.rs:350-352. The tokens left over are dropped. -/
def parseTokens (ts : List Token) : Res Expr :=
  (parseUnary (parserFuel ts.length) ts).bind fun (e, _) => .ok e

/-- Models `parse_expression`, expressions.rs:580-583. -/
def parseExpression (s : Str) : Res Expr := (tokenize s).bind parseTokens

end Rudy.Expr
