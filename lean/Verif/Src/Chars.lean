import Verif.Src.Unit
import Verif.Src.Predef
import Verif.Pp.Join
import Verif.HashMap.Model
/-!
From the characters of a file to the tokens the parser is given: init_macros, the reading of files in cc1 (main.c:564-593), preprocessor
(preprocess.c:1296-1316) with convert_pp_tokens and is_keyword (tokenize.c:123-180, 503-550), and with them cc1 as a whole. Left out (the outcome is `none`): options
that make cc1 stop before the parser; floating constants, character constants with a prefix; names with other characters than those of ASCII;
string literals of other elements than char.
-/
namespace Toycc.Src
open Toycc.Lex (asc Payload)
open Toycc.Pp (Bytes PTok)
open Toycc.Parse (Tok P Tree)

/-! ### Predefined macros -/

/-- define_macro, predefined_macro.c:6-10. -/
def defineMacro (env : Pp.Env) (st : Pp.St) (m : String × String) : Except Pp.PErr Pp.St :=
  match Pp.tokens env ⟨none, asc "<built-in>"⟩ (asc m.2) with
  | .error e => .error e
  | .ok ts => .ok (Pp.addMacro st { name := asc m.1, objlike := true, body := ts })

def defineMacros (env : Pp.Env) : Pp.St → List (String × String) → Except Pp.PErr Pp.St
  | st, [] => .ok st
  | st, m :: ms =>
    match defineMacro env st m with
    | .error e => .error e
    | .ok st' => defineMacros env st' ms

/-- The calls of add_builtin, predefined_macro.c:424-429. -/
def builtins : List (String × Pp.Handler) :=
  [("__FILE__", .file), ("__LINE__", .line), ("__COUNTER__", .counter), ("__TIMESTAMP__", .timestamp), ("__BASE_FILE__", .baseFile)]

/-- add_builtin, predefined_macro.c:12-17. -/
def addBuiltin (st : Pp.St) (m : String × Pp.Handler) : Pp.St :=
  Pp.addMacro st { name := asc m.1, objlike := true, body := [], handler := some m.2 }

/-- init_macros, predefined_macro.c:83-435; the texts of __DATE__ and __TIME__ (predefined_macro.c:62-80) are given. -/
def initMacros (env : Pp.Env) (date time : String) : Except Pp.PErr Pp.St :=
  match defineMacros env {} predefined with
  | .error e => .error e
  | .ok st => defineMacros env (builtins.foldl addBuiltin st) [("__DATE__", date), ("__TIME__", time)]

/-! ### Keywords and the conversion of preprocessing tokens -/

/-- `kw`, tokenize.c:126-172. -/
def keywords : List String :=
  ["return", "if", "else", "for", "while", "short", "int", "long", "sizeof", "char", "struct", "union", "void", "typedef", "_Bool", "enum", "static", "goto", "break",
   "continue", "switch", "case", "default", "extern", "_Alignof", "_Alignas", "do", "signed", "unsigned", "const", "volatile", "auto", "register", "restrict",
   "__restrict", "__restrict__", "_Noreturn", "float", "double", "typeof", "asm", "_Thread_local", "__thread", "_Atomic", "__attribute__"]

/-- is_keyword, tokenize.c:123-180: the keywords are put into a hash map in which the spelling is looked up. (The code keeps the map between calls.) -/
def isKeyword (text : Bytes) : Bool :=
  match HashMap.run HashMap.Map.new (keywords.map fun s => HashMap.Op.put (asc s) 1) with
  | .error _ => false
  | .ok m =>
    match HashMap.get m text with
    | .ok (some _) => true
    | _ => false

/-- The spellings of the punctuators the parser knows. -/
def sign : P → String
  | .lpar => "(" | .rpar => ")" | .lbrk => "[" | .rbrk => "]" | .lbrace => "{" | .rbrace => "}" | .dot => "." | .arrow => "->" | .inc => "++" | .dec => "--"
  | .plus => "+" | .minus => "-" | .star => "*" | .slash => "/" | .percent => "%" | .amp => "&" | .bar => "|" | .caret => "^" | .tilde => "~" | .bang => "!"
  | .shl => "<<" | .shr => ">>" | .lt => "<" | .le => "<=" | .gt => ">" | .ge => ">=" | .eqeq => "==" | .ne => "!=" | .ampamp => "&&" | .barbar => "||"
  | .quest => "?" | .colon => ":" | .comma => "," | .semi => ";" | .dots => "..." | .eq => "=" | .pluseq => "+=" | .minuseq => "-=" | .stareq => "*="
  | .slasheq => "/=" | .percenteq => "%=" | .ampeq => "&=" | .bareq => "|=" | .careteq => "^=" | .shleq => "<<=" | .shreq => ">>="

def signs : List P :=
  [.lpar, .rpar, .lbrk, .rbrk, .lbrace, .rbrace, .dot, .arrow, .inc, .dec, .plus, .minus, .star, .slash, .percent, .amp, .bar, .caret, .tilde, .bang,
   .shl, .shr, .lt, .le, .gt, .ge, .eqeq, .ne, .ampamp, .barbar, .quest, .colon, .comma, .semi, .dots, .eq, .pluseq, .minuseq, .stareq, .slasheq, .percenteq,
   .ampeq, .bareq, .careteq, .shleq, .shreq]

/-- The bytes of ASCII characters as a string. -/
def str (b : Bytes) : String := String.ofList (b.map fun c => Char.ofNat c.toNat)

/-- One step of convert_pp_tokens, tokenize.c:542-550, with convert_pp_number, tokenize.c:510-540, and the parser's view of the token. -/
def convertTok (t : PTok) : Option Tok :=
  if isKeyword t.text then some (.kw (str t.text))
  else
    match t.kind with
    | .ident => if t.text.all (· < 128) then some (.ident (str t.text)) else none
    | .punct => (signs.find? fun p => asc (sign p) == t.text).map .p
    | .ppNum =>
      match Lex.convertPpInt t.text t.text.length with
      | some (v, .int) => some (.num v)
      | some (v, .uint) => some (.tnum .uint v)
      | some (v, .long) => some (.tnum .long v)
      | some (v, .ulong) => some (.tnum .ulong v)
      | none => none
    | .num =>
      match t.payload with
      | .chr v .int => some (.num v)
      | _ => none
    | .str =>
      match t.payload with
      | .str .char us => if us.all (· < 128) then some (.str (str (us.dropLast.map UInt8.ofNat))) else none
      | _ => none
    | .eof => none

/-- convert_pp_tokens, tokenize.c:542-550: up to the end of the list. -/
def convertToks : List PTok → Option (List Tok)
  | [] => none
  | t :: r => if t.isEof then some [] else do return (← convertTok t) :: (← convertToks r)

/-! ### cc1 -/

/-- append_tokens, main.c:493-505; the null pointer is the empty list. -/
def appendTokens (l1 l2 : List PTok) : List PTok := Pp.body l1 ++ l2

/-- The files of the option -include, main.c:568-586: in the current directory, or else searched for. -/
def includeTokens (env : Pp.Env) : Pp.St → List Bytes → List PTok → Option (Pp.St × List PTok)
  | st, [], l => some (st, l)
  | st, f :: fs, l => do
    let (st1, path) ← if env.fileExists f then some (st, f) else (Pp.searchIncludePaths env st f).2.map fun p => ((Pp.searchIncludePaths env st f).1, p)
    let (st2, ts) ← (Pp.tokenizeFile env st1 path).toOption.join
    includeTokens env st2 fs (appendTokens l ts)

/-- The tokens cc1 gives to the parser, main.c:564-593: `files` are those of the option -include, `base` the source file. join_adjacent_string_literals follows convert_pp_tokens in the
code; the two are about different tokens. -/
def cc1Tokens (env : Pp.Env) (n : Nat) (st : Pp.St) (files : List Bytes) (base : Bytes) : Option (List Tok) := do
  let (st1, l) ← includeTokens env st files []
  let (st2, ts) ← (Pp.tokenizeFile env st1 base).toOption.join
  let (_, out) ← (Pp.preprocess env n st2 (appendTokens l ts)).toOption
  let out ← (Pp.joinStrings env.host out).toOption
  convertToks out

/-- cc1, main.c:564-624, to the instructions of the text section. -/
noncomputable def cc1 (env : Pp.Env) (val : Sc → Tree TN → Option Int) (n : Nat) (st : Pp.St) (files : List Bytes) (base : Bytes) : Option (List Rv.Instr) := do
  compileUnit val n (← cc1Tokens env n st files base)

end Toycc.Src
