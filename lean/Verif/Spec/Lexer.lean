import Verif.Model.Scanner

/-!
# What the scanner of the deck parser is meant to do

The patterns of parser/deckscanner.rl as regular expressions, with their meaning, and the rule "the longest match wins, among
patterns with a longest match the first one wins".  Only the token types are taken from the model; nothing here depends on the
generated tables.
-/

namespace Schnek.Spec.Lexer

open Schnek.Scanner (Byte Kind Tok Outcome)

/-- Regular expressions over bytes; `cls` is a set of bytes, given by ranges. -/
inductive RE
  | empty
  | eps
  | cls (ranges : List (ℕ × ℕ))
  | alt (r s : RE)
  | cat (r s : RE)
  | star (r : RE)
  deriving DecidableEq

/-- A byte lies in one of the ranges. -/
def inRanges (b : Byte) (l : List (ℕ × ℕ)) : Bool := l.any fun r => Nat.ble r.1 b.val && Nat.ble b.val r.2

/-- The strings a regular expression stands for. -/
inductive Matches : RE → List Byte → Prop
  | eps : Matches .eps []
  | cls {b l} : inRanges b l = true → Matches (.cls l) [b]
  | altL {r s w} : Matches r w → Matches (.alt r s) w
  | altR {r s w} : Matches s w → Matches (.alt r s) w
  | cat {r s v w} : Matches r v → Matches s w → Matches (.cat r s) (v ++ w)
  | starNil {r} : Matches (.star r) []
  | starCons {r v w} : Matches r v → Matches (.star r) w → Matches (.star r) (v ++ w)

/-- A single character. -/
def chr (c : Char) : RE := .cls [(c.toNat, c.toNat)]

/-- A fixed string. -/
def lit (s : String) : RE := s.toList.foldr (fun c r => .cat (chr c) r) .eps

/-- One or more. -/
def plus (r : RE) : RE := .cat r (.star r)

/-- Zero or one. -/
def opt (r : RE) : RE := .alt .eps r

/-- Any character. -/
def any : RE := .cls [(0, 255)]

/-- `0-9` -/
def digit : RE := .cls [(48, 57)]

/-- parser/deckscanner.rl 31: letters and the underscore. -/
def alphaU : RE := .cls [(65, 90), (95, 95), (97, 122)]

/-- parser/deckscanner.rl 28: letters, digits and the underscore. -/
def alnumU : RE := .cls [(48, 57), (65, 90), (95, 95), (97, 122)]

/-- parser/deckscanner.rl 34: letters, digits, the underscore and the colon. -/
def alnumUC : RE := .cls [(48, 58), (65, 90), (95, 95), (97, 122)]

/-- parser/deckscanner.rl 71: any character but quote and backslash, or a backslash and any character. -/
def sliteralChar : RE := .alt (.cls [(0, 38), (40, 91), (93, 255)]) (.cat (.cls [(92, 92)]) any)

/-- parser/deckscanner.rl 75: any character but double quote and backslash, or a backslash and any character. -/
def dliteralChar : RE := .alt (.cls [(0, 33), (35, 91), (93, 255)]) (.cat (.cls [(92, 92)]) any)

/-- parser/deckscanner.rl 92 -/
def floatExp : RE := .cat (.cls [(69, 69), (101, 101)]) (.cat (opt (.cls [(43, 43), (45, 45)])) (plus digit))

/-- parser/deckscanner.rl 93 -/
def floatDec : RE := .cat (chr '.') (.cat (.star digit) (opt floatExp))

/-- What is done with the characters of a match. -/
inductive Use
  /-- Insert a token without text. -/
  | token (k : Kind)
  /-- Insert a token with the characters as its text. -/
  | tokenText (k : Kind)
  /-- Insert a token with the characters between the quotes as its text. -/
  | quoted (k : Kind)
  /-- Nothing (whitespace, comment to the end of the line). -/
  | skip
  /-- Skip everything up to the next `*/`. -/
  | comment
  deriving DecidableEq

/-- parser/deckscanner.rl 36-94: the patterns, in the order in which they are written down there, and what is done with them. -/
def patterns : List (RE × Use) :=
  [(lit "=", .token .equal),
   (lit "{", .token .lbrace),
   (lit "}", .token .rbrace),
   (lit "(", .token .lbracket),
   (lit ")", .token .rbracket),
   (lit ";", .token .semicolon),
   (lit ",", .token .comma),
   (lit "+", .token .plus),
   (lit "-", .token .minus),
   (lit "*", .token .times),
   (lit "/", .token .divide),
   (lit "^", .token .exponent),
   (lit "int", .token .intDecl),
   (lit "integer", .token .intDecl),
   (lit "float", .token .floatDecl),
   (lit "double", .token .floatDecl),
   (lit "real", .token .floatDecl),
   (lit "string", .token .stringDecl),
   (.cat alphaU (.star alnumU), .tokenText .identifier),
   (.cat alphaU (.star alnumUC), .tokenText .identifier),
   (.cat (chr '\'') (.cat (.star sliteralChar) (chr '\'')), .quoted .string),
   (.cat (chr '"') (.cat (.star dliteralChar) (chr '"')), .quoted .string),
   (.cls [(0, 32), (127, 255)], .skip),
   (.cat (lit "//") (.cat (.star (.cls [(0, 9), (11, 255)])) (chr '\n')), .skip),
   (lit "/*", .comment),
   (plus digit, .tokenText .integer),
   (.cat (.star digit) (.alt floatDec floatExp), .tokenText .float)]

/-- Pattern number `i` (from 0) matches the string `w`. -/
def PatMatches (i : ℕ) (w : List Byte) : Prop := ∃ r u, patterns[i]? = some (r, u) ∧ Matches r w

/-- What is done with a match of pattern number `i`. -/
def useOf (i : ℕ) : Use := ((patterns[i]?).map Prod.snd).getD .skip

/-- The first `n` characters of `s` are what the scanner takes next: pattern number `i` matches them, no pattern matches more
characters of `s`, and no pattern before `i` matches the same characters. -/
structure Longest (s : List Byte) (i n : ℕ) : Prop where
  inside : n ≤ s.length
  here : PatMatches i (s.take n)
  longest : ∀ j k, k ≤ s.length → PatMatches j (s.take k) → k ≤ n
  first : ∀ j, PatMatches j (s.take n) → i ≤ j

/-- The number of line breaks. -/
def newlines (w : List Byte) : ℕ := w.count 10

/-- The tokens for a match; `line` is the line in which the match ends. -/
def emitted (line : ℕ) (w : List Byte) : Use → List Tok
  | .token k => [⟨line, k, []⟩]
  | .tokenText k => [⟨line, k, w⟩]
  | .quoted k => [⟨line, k, (w.drop 1).take (w.length - 2)⟩]
  | .skip => []
  | .comment => []

/-- What follows the first `*/`. -/
def afterComment : List Byte → Option (List Byte)
  | [] => none
  | [_] => none
  | a :: b :: r => if a = 42 ∧ b = 47 then some r else afterComment (b :: r)

/-- How the scan ends. -/
inductive Ending
  /-- All characters were used. -/
  | complete
  /-- The input ends inside a comment. -/
  | openComment
  /-- The input ends inside a string literal. -/
  | openString
  /-- There is a character in this line with which no token begins. -/
  | badCharacter (line : ℕ)
  deriving DecidableEq

/-- The tokens of the characters `s`, when the first of them is in line `line`. -/
inductive Lex : List Byte → ℕ → List Tok → Ending → Prop
  | nil {line} : Lex [] line [] .complete
  | token {s line i n toks e} : Longest s i n → useOf i ≠ .comment → Lex (s.drop n) (line + newlines (s.take n)) toks e →
      Lex s line (emitted (line + newlines (s.take n)) (s.take n) (useOf i) ++ toks) e
  | comment {s line i n r toks e} : Longest s i n → useOf i = .comment → afterComment (s.drop n) = some r →
      Lex r (line + (newlines s - newlines r)) toks e → Lex s line toks e
  | openComment {s line i n} : Longest s i n → useOf i = .comment → afterComment (s.drop n) = none →
      Lex s line [] .openComment
  | openString {b s line} : (∀ i n, n ≤ (b :: s).length → ¬ PatMatches i ((b :: s).take n)) → b = 34 ∨ b = 39 →
      Lex (b :: s) line [] .openString
  | bad {b s line} : (∀ i n, n ≤ (b :: s).length → ¬ PatMatches i ((b :: s).take n)) → b ≠ 34 → b ≠ 39 →
      Lex (b :: s) line [] (.badCharacter line)

/-- What the caller of the scanner gets: the tokens, and after a bad character a message on standard error. -/
def report : Ending → List Tok → Outcome
  | .badCharacter line, toks => .error line toks
  | _, toks => .ok toks

/-- From the place in the input where a token (or a space, or a comment) begins to the place where the next one begins. -/
inductive Next : List Byte → List Byte → Prop
  | token {s i n} : Longest s i n → useOf i ≠ .comment → Next s (s.drop n)
  | comment {s i n r} : Longest s i n → useOf i = .comment → afterComment (s.drop n) = some r → Next s r

/-- A token (or a space, or a comment) of the characters `input` begins where the characters `s` are left. -/
inductive Begins : List Byte → List Byte → Prop
  | here {s} : Begins s s
  | later {input s₁ s} : Next input s₁ → Begins s₁ s → Begins input s

/-- After the characters `w` the token can go on: some pattern matches a longer string beginning with `w`. -/
def Extendable (w : List Byte) : Prop := ∃ i z, z ≠ [] ∧ PatMatches i (w ++ z)

/-- Wherever a token begins, fewer than `B` characters have to be looked at before it is known that it does not go on. -/
def Fits (B : ℕ) (input : List Byte) : Prop :=
  ∀ s, Begins input s → ∀ n, n ≤ s.length → Extendable (s.take n) → n < B

/-- What may stand between two quotes `q`: any characters, but a quote only after a backslash, and after a backslash any one
character. -/
inductive StringBody (q : Byte) : List Byte → Prop
  | nil : StringBody q []
  | plain {b w} : b ≠ q → b ≠ 92 → StringBody q w → StringBody q (b :: w)
  | escape {b w} : StringBody q w → StringBody q (92 :: b :: w)

/-- Letter or underscore. -/
def letter (b : Byte) : Bool := inRanges b [(65, 90), (95, 95), (97, 122)]

/-- Letter, digit or underscore. -/
def letterOrDigit (b : Byte) : Bool := inRanges b [(48, 57), (65, 90), (95, 95), (97, 122)]

/-- Letter, digit, underscore or colon. -/
def letterDigitColon (b : Byte) : Bool := inRanges b [(48, 58), (65, 90), (95, 95), (97, 122)]

/-- A blank: a space, a line break, or a character that is not printed. -/
def blank (b : Byte) : Bool := inRanges b [(0, 32), (127, 255)]

/-- Characters without meaning: blanks, comments between `/*` and the next `*/`, and comments from `//` to the end of the line. -/
inductive Layout : List Byte → Prop
  | nil : Layout []
  | blank {b X} : blank b = true → Layout X → Layout (b :: X)
  | block {w X} : ¬ [42, 47] <:+: w ++ [42] → Layout X → Layout (47 :: 42 :: (w ++ 42 :: 47 :: X))
  | line {w X} : (∀ b ∈ w, b ≠ 10) → Layout X → Layout (47 :: 47 :: (w ++ 10 :: X))

/-- The names of the data types. -/
def keywords : List String := ["int", "integer", "float", "double", "real", "string"]

end Schnek.Spec.Lexer
