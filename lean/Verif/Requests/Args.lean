/-
Model of how `req/call` takes the arguments of a procedure from the request
(`reqgetvar`, src/eval/requests.c:26-95).

Simplifications: texts are lists of characters; the parsers are given (`kno_parse_arg` itself is
modelled in `Verif/Text`); reference counts are left out.
-/
namespace Kno.Requests

/-- The values there are and the parsers: `parse` is `kno_parse`, `none` for an error;
`parseArg` is `kno_parse_arg`, which has no errors (src/lisp/parse.c:1841-1856); `eof` is what it
gives for a text without characters (src/lisp/parse.c:1766-1768). -/
structure Parser (V : Type) where
  parse : List Char → Option V
  parseArg : List Char → V
  isNumber : V → Bool
  str : List Char → V

/-- `strchr("@{#(",data[0])`, which also finds the end of a text. -/
def opens : List Char → Bool
  | [] => true
  | c :: _ => c == '@' || c == '{' || c == '#' || c == '('

/-- `isdigit(data[0])`. -/
def startsDigit : List Char → Bool
  | c :: _ => decide ('0' ≤ c) && decide (c ≤ '9')
  | [] => false

/-- One text for a parameter (src/eval/requests.c:34-66); `raw` when the name of the parameter
starts with `%` (28-29). -/
def oneArg {V : Type} (P : Parser V) (raw : Bool) (text : List Char) : V :=
  if raw then P.str text
  else if text = [] then P.str text
  else if opens text then P.parseArg text
  else if startsDigit text then
    if P.isNumber (P.parseArg text) then P.parseArg text else P.str text
  else
    match text with
    | ':' :: rest => if rest = [] then P.str text else (P.parse rest).getD (P.str text)
    | '\\' :: rest => P.str rest
    | _ => P.str text

/-- One of several texts for a parameter (src/eval/requests.c:67-92). -/
def eachArg {V : Type} (P : Parser V) (raw : Bool) (text : List Char) : V :=
  match text with
  | '\\' :: rest => P.str rest
  | [':'] => P.str text
  | ':' :: rest => (P.parse rest).getD (P.str text)
  | _ =>
    if startsDigit text || text.head? = some '+' || text.head? = some '-' ||
        text.head? = some '.' then
      if P.isNumber (P.parseArg text) then P.parseArg text else P.str text
    else if !raw && opens text then P.parseArg text
    else P.str text

/-- What a parameter gets from the request: the values are texts or other values
(src/eval/requests.c:26-95). -/
def argFor {V : Type} (P : Parser V) (raw : Bool) : List (List Char ⊕ V) → List V
  | [.inl text] => [oneArg P raw text]
  | [.inr v] => [v]
  | vals => vals.map fun
    | .inl text => eachArg P raw text
    | .inr v => v

end Kno.Requests
