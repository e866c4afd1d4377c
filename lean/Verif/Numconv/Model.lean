import Verif.Numconv.Text

/-!
# Writing numbers in Polish words

The functions of `tools/translators/transferer/numconversion.cpp`, which write
a number given in digits as Polish words and tell how each word is inflected.

A text is the list of its bytes.  A function gives `none` where the code reads
outside of a string or of a table.
-/

namespace Verif.Numconv

/-- The forms of a number.

`tools/translators/transferer/numconversion.cpp`, lines 16–28 -/
inductive Form where
  | CARDINAL
  | ORDINAL
  | CARDINAL_G
  | ORDINAL_F
  | ORDINAL_NPL
  | ORDINAL_GPL
  | BEFORE_NOUN
  | CARDINAL_NPL
  | CARDINAL_GPL
  | CARDINAL_F
  | CARDINAL_FG
  deriving DecidableEq, Repr

/-- The place of a digit in its group.

`tools/translators/transferer/numconversion.cpp`, lines 30–35 -/
inductive Place where
  | UNITS
  | TEENS
  | TENS
  | HUNDREDS
  deriving DecidableEq, Repr

/-- How a number governs its noun.

`tools/translators/transferer/numconversion.cpp`, lines 37–42 -/
inductive Government where
  | ZERO
  | JEDEN
  | DWA
  | PIEC
  deriving DecidableEq, Repr

/-- The names of the units.

`tools/translators/transferer/numconversion.cpp`, lines 44–116.  A row
beyond the last is no row. -/
def units : Form → List Str
  | .CARDINAL =>
    [b!"zero", b!"jeden", b!"dwa", b!"trzy", b!"cztery", b!"pięć", b!"sześć", b!"siedem",
     b!"osiem", b!"dziewięć"]
  | .ORDINAL =>
    [b!"zerowy", b!"pierwszy", b!"drugi", b!"trzeci", b!"czwarty", b!"piąty", b!"szósty",
     b!"siódmy", b!"ósmy", b!"dziewiąty"]
  | .CARDINAL_G =>
    [b!"zera", b!"jeden", b!"dwóch", b!"trzech", b!"czterech", b!"pięciu", b!"sześciu",
     b!"siedmiu", b!"ośmiu", b!"dziewięciu"]
  | .ORDINAL_F =>
    [b!"zerowa", b!"pierwsza", b!"druga", b!"trzecia", b!"czwarta", b!"piąta", b!"szósta",
     b!"siódma", b!"ósma", b!"dziewiąta"]
  | .ORDINAL_NPL =>
    [b!"zerowe", b!"pierwsze", b!"drugie", b!"trzecie", b!"czwarte", b!"piąte", b!"szóste",
     b!"siódme", b!"ósme", b!"dziewiąte"]
  | .ORDINAL_GPL =>
    [b!"zerowych", b!"pierwszych", b!"drugich", b!"trzecich", b!"czwartych", b!"piątych",
     b!"szóstych", b!"siódmych", b!"ósmych", b!"dziewiątych"]
  | .BEFORE_NOUN =>
    [b!"zero", b!"jedno", b!"dwu", b!"trzy", b!"cztero", b!"pięcio", b!"sześcio", b!"siedmio",
     b!"ośmio", b!"dziewięcio"]
  | _ => []

/-- The names of ten and of the teens.

`tools/translators/transferer/numconversion.cpp`, lines 118–197.  A row
beyond the last is no row. -/
def teens : Form → List Str
  | .CARDINAL =>
    [b!"dziesięć", b!"jedenaście", b!"dwanaście", b!"trzynaście", b!"czternaście",
     b!"piętnaście", b!"szesnaście", b!"siedemnaście", b!"osiemnaście", b!"dziewiętnaście"]
  | .ORDINAL =>
    [b!"dziesiąty", b!"jedenasty", b!"dwunasty", b!"trzynasty", b!"czternasty", b!"piętnasty",
     b!"szesnasty", b!"siedemnasty", b!"osiemnasty", b!"dziewiętnasty"]
  | .CARDINAL_G =>
    [b!"dziesięciu", b!"jedenastu", b!"dwunastu", b!"trzynastu", b!"czternastu", b!"piętnastu",
     b!"szesnastu", b!"siedemnastu", b!"osiemnastu", b!"dziewiętnastu"]
  | .ORDINAL_F =>
    [b!"dziesiąta", b!"jedenasta", b!"dwunasta", b!"trzynasta", b!"czternasta", b!"piętnasta",
     b!"szesnasta", b!"siedemnasta", b!"osiemnasta", b!"dziewiętnasta"]
  | .ORDINAL_NPL =>
    [b!"dziesiąte", b!"jedenaste", b!"dwunaste", b!"trzynaste", b!"czternaste", b!"piętnaste",
     b!"szesnaste", b!"siedemnaste", b!"osiemnaste", b!"dziewiętnaste"]
  | .ORDINAL_GPL =>
    [b!"dziesiątych", b!"jedenastych", b!"dwunastych", b!"trzynastych", b!"czternastych",
     b!"piętnastych", b!"szesnastych", b!"siedemnastych", b!"osiemnastych", b!"dziewiętnastych"]
  | .BEFORE_NOUN =>
    [b!"dziesięcio", b!"jedenasto", b!"dwunasto", b!"trzynasto", b!"czternasto", b!"piętnasto",
     b!"szesnasto", b!"siedemnasto", b!"osiemnasto", b!"dziewiętnasto"]
  | _ => []

/-- The names of the tens.

`tools/translators/transferer/numconversion.cpp`, lines 199–278.  A row
beyond the last is no row. -/
def tens : Form → List Str
  | .CARDINAL =>
    [b!"", b!"dziesięć", b!"dwadzieścia", b!"trzydzieści", b!"czterdzieści", b!"pięćdziesiąt",
     b!"sześćdziesiąt", b!"siedemdziesiąt", b!"osiemdziesiąt", b!"dziewięćdziesiąt"]
  | .ORDINAL =>
    [b!"", b!"dziesiąty", b!"dwudziesty", b!"trzydziesty", b!"czterdziesty", b!"pięćdziesiąty",
     b!"sześćdziesiąty", b!"siedemdziesiąty", b!"osiemdziesiąty", b!"dziewięćdziesiąty"]
  | .CARDINAL_G =>
    [b!"", b!"dziesięciu", b!"dwudziestu", b!"trzydziestu", b!"czterdziestu",
     b!"pięćdziesięciu", b!"sześćdziesięciu", b!"siedemdziesięciu", b!"osiemdziesięciu",
     b!"dziewięćdziesięciu"]
  | .ORDINAL_F =>
    [b!"", b!"dziesiąta", b!"dwudziesta", b!"trzydziesta", b!"czterdziesta", b!"pięćdziesiąta",
     b!"sześćdziesiąta", b!"siedemdziesiąta", b!"osiemdziesiąta", b!"dziewięćdziesiąta"]
  | .ORDINAL_NPL =>
    [b!"", b!"dziesiąte", b!"dwudzieste", b!"trzydzieste", b!"czterdzieste", b!"pięćdziesiąte",
     b!"sześćdziesiąte", b!"siedemdziesiąte", b!"osiemdziesiąte", b!"dziewięćdziesiąte"]
  | .ORDINAL_GPL =>
    [b!"", b!"dziesiątych", b!"dwudziestych", b!"trzydziestych", b!"czterdziestych",
     b!"pięćdziesiątych", b!"sześćdziesiątych", b!"siedemdziesiątych", b!"osiemdziesiątych",
     b!"dziewięćdziesiątych"]
  | .BEFORE_NOUN =>
    [b!"", b!"dziesięcio", b!"dwudziesto", b!"trzydziesto", b!"czterdziesto",
     b!"pięćdziesięcio", b!"sześćdziesięcio", b!"siedemdziesięcio", b!"osiemdziesięcio",
     b!"dziewięćdziesięcio"]
  | _ => []

/-- The names of the hundreds.

`tools/translators/transferer/numconversion.cpp`, lines 280–359.  A row
beyond the last is no row. -/
def hundreds : Form → List Str
  | .CARDINAL =>
    [b!"", b!"sto", b!"dwieście", b!"trzysta", b!"czterysta", b!"pięćset", b!"sześćset",
     b!"siedemset", b!"osiemset", b!"dziewięćset"]
  | .ORDINAL =>
    [b!"", b!"setny", b!"dwusetny", b!"trzysetny", b!"czterysetny", b!"pięćsetny",
     b!"sześćsetny", b!"siedemsetny", b!"osiemsetny", b!"dziewięćsetny"]
  | .CARDINAL_G =>
    [b!"", b!"stu", b!"dwustu", b!"trzystu", b!"czterystu", b!"pięciuset", b!"sześciuset",
     b!"siedmiuset", b!"ośmiuset", b!"dziewięciuset"]
  | .ORDINAL_F =>
    [b!"", b!"setna", b!"dwusetna", b!"trzysetna", b!"czterysetna", b!"pięćsetna",
     b!"sześćsetna", b!"siedemsetna", b!"osiemsetna", b!"dziewięćsetna"]
  | .ORDINAL_NPL =>
    [b!"", b!"setne", b!"dwusetne", b!"trzysetne", b!"czterysetne", b!"pięćsetne",
     b!"sześćsetne", b!"siedemsetne", b!"osiemsetne", b!"dziewięćsetne"]
  | .ORDINAL_GPL =>
    [b!"", b!"setnych", b!"dwusetnych", b!"trzysetnych", b!"czterysetnych", b!"pięćsetnych",
     b!"sześćsetnych", b!"siedemsetnych", b!"osiemsetnych", b!"dziewięćsetnych"]
  | .BEFORE_NOUN =>
    [b!"", b!"stu", b!"dwustu", b!"trzystu", b!"czterystu", b!"pięćset", b!"sześćset",
     b!"siedemset", b!"osiemset", b!"dziewięćset"]
  | _ => []

/-- The names of the first powers of a thousand.

`tools/translators/transferer/numconversion.cpp`, lines 361–552.  A row
beyond the last is no row. -/
def thomils : Form → List Str
  | .CARDINAL =>
    [b!"jeden", b!"tysiąc", b!"milion", b!"miliard", b!"bilion", b!"biliard", b!"trylion",
     b!"tryliard", b!"kwadrylion", b!"kwadryliard", b!"kwintylion", b!"kwintyliard",
     b!"sekstylion", b!"sekstyliard", b!"septylion", b!"septyliard", b!"oktylion",
     b!"oktyliard", b!"nonylion", b!"nonyliard"]
  | .ORDINAL =>
    [b!"pierwszy", b!"tysięczny", b!"milionowy", b!"miliardowy", b!"bilionowy", b!"biliardowy",
     b!"trylionowy", b!"tryliardowy", b!"kwadrylionowy", b!"kwadryliardowy", b!"kwintylionowy",
     b!"kwintyliardowy", b!"sekstylionowy", b!"sekstyliardowy", b!"septylionowy",
     b!"septyliardowy", b!"oktylionowy", b!"oktyliardowy", b!"nonylionowy", b!"nonyliardowy"]
  | .CARDINAL_G =>
    [b!"jednego", b!"tysiąca", b!"miliona", b!"miliarda", b!"biliona", b!"biliarda",
     b!"tryliona", b!"tryliarda", b!"kwadryliona", b!"kwadryliarda", b!"kwintyliona",
     b!"kwintyliarda", b!"sekstyliona", b!"sekstyliarda", b!"septyliona", b!"septyliarda",
     b!"oktyliona", b!"oktyliarda", b!"nonyliona", b!"nonyliarda"]
  | .ORDINAL_F =>
    [b!"", b!"tysięczna", b!"milionowa", b!"miliardowa", b!"bilionowa", b!"biliardowa",
     b!"trylionowa", b!"tryliardowa", b!"kwadrylionowa", b!"kwadryliardowa", b!"kwintylionowa",
     b!"kwintyliardowa", b!"sekstylionowa", b!"sekstyliardowa", b!"septylionowa",
     b!"septyliardowa", b!"oktylionowa", b!"oktyliardowa", b!"nonylionowa", b!"nonyliardowa"]
  | .ORDINAL_NPL =>
    [b!"", b!"tysięczne", b!"milionowe", b!"miliardowe", b!"bilionowe", b!"biliardowe",
     b!"trylionowe", b!"tryliardowe", b!"kwadrylionowe", b!"kwadryliardowe", b!"kwintylionowe",
     b!"kwintyliardowe", b!"sekstylionowe", b!"sekstyliardowe", b!"septylionowe",
     b!"septyliardowe", b!"oktylionowe", b!"oktyliardowe", b!"nonylionowe", b!"nonyliardowe"]
  | .ORDINAL_GPL =>
    [b!"", b!"tysięcznych", b!"milionowych", b!"miliardowych", b!"bilionowych",
     b!"biliardowych", b!"trylionowych", b!"tryliardowych", b!"kwadrylionowych",
     b!"kwadryliardowych", b!"kwintylionowych", b!"kwintyliardowych", b!"sekstylionowych",
     b!"sekstyliardowych", b!"septylionowych", b!"septyliardowych", b!"oktylionowych",
     b!"oktyliardowych", b!"nonylionowych", b!"nonyliardowych"]
  | .BEFORE_NOUN =>
    [b!"jedno", b!"tysiąc", b!"milion", b!"miliard", b!"bilion", b!"biliard", b!"trylion",
     b!"tryliard", b!"kwadrylion", b!"kwadryliard", b!"kwintylion", b!"kwintyliard",
     b!"sekstylion", b!"sekstyliard", b!"septylion", b!"septyliard", b!"oktylion",
     b!"oktyliard", b!"nonylion", b!"nonyliard"]
  | .CARDINAL_NPL =>
    [b!"", b!"tysiące", b!"miliony", b!"miliardy", b!"biliony", b!"biliardy", b!"tryliony",
     b!"tryliardy", b!"kwadryliony", b!"kwadryliardy", b!"kwintyliony", b!"kwintyliardy",
     b!"sekstyliony", b!"sekstyliardy", b!"septyliony", b!"septyliardy", b!"oktyliony",
     b!"oktyliardy", b!"nonyliony", b!"nonyliardy"]
  | .CARDINAL_GPL =>
    [b!"", b!"tysięcy", b!"milionów", b!"miliardów", b!"bilionów", b!"biliardów",
     b!"trylionów", b!"tryliardów", b!"kwadrylionów", b!"kwadryliardów", b!"kwintylionów",
     b!"kwintyliardów", b!"sekstylionów", b!"sekstyliardów", b!"septylionów", b!"septyliardów",
     b!"oktylionów", b!"oktyliardów", b!"nonylionów", b!"nonyliardów"]
  | _ => []

/-- Whether a byte is a digit: `isdigit` of the C locale. -/
def isDigit (c : Byte) : Bool := 48 ≤ c.toNat && c.toNat ≤ 57

/-- The entry of a row for a digit, where the code reads `row[dix(c)]`.

`tools/translators/transferer/numconversion.cpp`, lines 554–557 -/
def entry (row : List Str) (c : Byte) : Option Str :=
  if 48 ≤ c.toNat then row[c.toNat - 48]? else none

/-- A text with its inflection. -/
abbrev Pair := Str × Str

/-- Two texts with a blank between them; the sign of failure if either is it.

`tools/translators/transferer/numconversion.cpp`, lines 559–573 -/
def join2 (a b : Pair) : Pair :=
  if a.1 = b!"#" ∨ b.1 = b!"#" then (b!"#", b!"")
  else (a.1 ++ b!" " ++ b.1, a.2 ++ b!" " ++ b.2)

/-- `tools/translators/transferer/numconversion.cpp`, lines 575–588 -/
def join3 (a b c : Pair) : Pair := join2 (join2 a b) c

/-- `tools/translators/transferer/numconversion.cpp`, lines 590–605 -/
def join4 (a b c d : Pair) : Pair := join2 (join3 a b c) d

/-- What stands between a text and the one before it.

`tools/translators/transferer/numconversion.cpp`, line 612 -/
def joiner : Form → Option Str
  | .CARDINAL | .ORDINAL | .CARDINAL_G | .ORDINAL_F | .ORDINAL_NPL | .ORDINAL_GPL => some b!" "
  | .BEFORE_NOUN => some b!""
  | _ => none

/-- Puts `p` before `s`.

`tools/translators/transferer/numconversion.cpp`, lines 607–621 -/
def prepend (s p : Str) (type : Form) : Option Str :=
  match s with
  | [] => some p
  | c :: _ =>
    if c ≠ 32 then
      if p ≠ [] then do return p ++ (← joiner type) ++ s else some s
    else some p

/-- The comparison of the digits before the comma: `some` where it is decided.

`tools/translators/transferer/numconversion.cpp`, lines 639–644 -/
def biggerWhole : Str → Str → Option Bool
  | a :: as, b :: bs =>
    if b.toNat < a.toNat then some true
    else if a.toNat < b.toNat then some false
    else biggerWhole as bs
  | _, _ => none

/-- The comparison of what stands after the comma, as far as both go.

`tools/translators/transferer/numconversion.cpp`, lines 647–653 -/
def biggerRest : Str → Str → Bool
  | a :: as, b :: bs => if b.toNat < a.toNat then true else biggerRest as bs
  | _, _ => false

/-- Whether the first number is bigger.  The characters compared are digits in
the first loop; in the second one the code compares them as signed, here as
unsigned.

`tools/translators/transferer/numconversion.cpp`, lines 623–657 -/
def bigger (n0 n1 : Str) : Bool :=
  let w0 := n0.takeWhile isDigit
  let w1 := n1.takeWhile isDigit
  if w1.length < w0.length then true
  else if w0.length < w1.length then false
  else
    match biggerWhole w0 w1 with
    | some r => r
    | none =>
      if w0.length = n0.length ∧ w0.length = n1.length then false
      else if biggerRest (n0.drop (w0.length + 1)) (n1.drop (w0.length + 1)) then true
      else decide (n1.length < n0.length)

/-- The codes of the inflection of the units.

`tools/translators/transferer/numconversion.cpp`, lines 661–664 -/
def unitsI : Form → List Str
  | .CARDINAL =>
    [b!"R:5", b!"0", b!"LG:z", b!"LG:z", b!"LG:z", b!"LG:r", b!"LG:r", b!"LG:r", b!"LG:r",
     b!"LG:r"]
  | .ORDINAL =>
    [b!"P", b!"LP-P", b!"LP-P", b!"LP-P", b!"LP-P", b!"LP-P", b!"LP-P", b!"LP-P", b!"LP-P",
     b!"LP-P"]
  | _ => []

/-- `tools/translators/transferer/numconversion.cpp`, line 666 -/
def names : Place → Form → List Str
  | .UNITS => units
  | .TEENS => teens
  | .TENS => tens
  | .HUNDREDS => hundreds

/-- The code of the inflection of the word for a digit.

`tools/translators/transferer/numconversion.cpp`, lines 659–687 -/
def makeTinfl (type : Form) (digit : Byte) (rank : Place) : Option Str :=
  match type with
  | .CARDINAL => if rank = .UNITS then entry (unitsI .CARDINAL) digit else some b!"LG:r"
  | .ORDINAL => if rank = .UNITS then entry (unitsI .ORDINAL) digit else some b!"LP-P"
  | .CARDINAL_G => some b!"0"
  | .ORDINAL_F | .ORDINAL_NPL | .ORDINAL_GPL => do
    return (← entry (names rank .ORDINAL) digit) ++ b!"_LP-P"
  | .BEFORE_NOUN => some b!""
  | _ => some b!"#"

/-- `tools/translators/transferer/numconversion.cpp`, lines 694–697 -/
def unduotre : List Str :=
  [b!"", b!"un", b!"duo", b!"tre", b!"kwattuor", b!"kwin", b!"seks", b!"septen", b!"okto",
   b!"nowem"]

/-- `tools/translators/transferer/numconversion.cpp`, lines 698–701 -/
def decvigint : List Str :=
  [b!"", b!"dec", b!"wigint", b!"trigint", b!"kwadragint", b!"kwinkwagint", b!"seksagint",
   b!"septuagint", b!"oktogint", b!"nowemgint", b!"cent"]

/-- `tools/translators/transferer/numconversion.cpp`, lines 702–712 -/
def illionard : Form → List Str
  | .CARDINAL => [b!"ylion", b!"yliard"]
  | .ORDINAL => [b!"ylionowy", b!"yliardowy"]
  | .CARDINAL_G => [b!"yliona", b!"yliarda"]
  | .ORDINAL_F => [b!"ylionowa", b!"yliardowa"]
  | .ORDINAL_NPL => [b!"ylionowe", b!"yliardowe"]
  | .ORDINAL_GPL => [b!"ylionowych", b!"yliardowych"]
  | .BEFORE_NOUN => [b!"ylion", b!"yliard"]
  | .CARDINAL_NPL => [b!"yliony", b!"yliardy"]
  | .CARDINAL_GPL => [b!"ylionów", b!"yliardów"]
  | _ => []

/-- The name of a power of a thousand.

`tools/translators/transferer/numconversion.cpp`, lines 689–717 -/
def thomil (type : Form) (rank : Nat) : Option Str :=
  if rank < 20 then (thomils type)[rank]?
  else do
    return (← unduotre[rank / 2 % 10]?) ++ (← decvigint[rank / 2 / 10]?)
      ++ (← (illionard type)[rank % 2]?)

/-- `tools/translators/transferer/numconversion.cpp`, lines 723–724 -/
def unitTinfl : Form → Option Str
  | .CARDINAL => some b!"R:3"
  | .ORDINAL => some b!"LP-P"
  | .CARDINAL_G => some b!"0"
  | .ORDINAL_F | .ORDINAL_NPL | .ORDINAL_GPL | .BEFORE_NOUN => some b!""
  | _ => none

/-- The name of a power of a thousand with its inflection.

`tools/translators/transferer/numconversion.cpp`, lines 719–738 -/
def makeLargeUnit (type : Form) (rank : Nat) : Option Pair :=
  if rank < 220 then do
    let te ← thomil type rank
    let ti ←
      match type with
      | .ORDINAL_F | .ORDINAL_NPL | .ORDINAL_GPL => do
        pure ((← thomil .ORDINAL rank) ++ b!"_LP-P")
      | .CARDINAL_NPL | .CARDINAL_GPL => do
        pure ((← thomil .CARDINAL rank) ++ b!"_R:3")
      | _ => unitTinfl type
    return (te, ti)
  else some (b!"#", b!"")

/-- Whether `n` is the digit with zeros before it.  The code reads the last
character, of an empty text the one before its start.

`tools/translators/transferer/numconversion.cpp`, lines 740–751 -/
def equals (n : Str) (digit : Byte) : Option Bool :=
  match n.reverse with
  | [] => none
  | c :: rest => some (if c ≠ digit then false else rest.all (· = 48))

/-- The form of the hundreds before other words of the group.

`tools/translators/transferer/numconversion.cpp`, lines 796–798 -/
def lonehundred : Form → Option Form
  | .CARDINAL | .ORDINAL | .ORDINAL_F | .ORDINAL_NPL | .ORDINAL_GPL => some .CARDINAL
  | .CARDINAL_G => some .CARDINAL_G
  | .BEFORE_NOUN => some .BEFORE_NOUN
  | _ => none

/-- The units and the teens of a group: the last digit is `u`, the one before
it, if there is one, is `t`.

`tools/translators/transferer/numconversion.cpp`, lines 765–780 -/
def groupUnits (type : Form) (t : Option Byte) (u : Byte) : Option Pair :=
  match t with
  | none => do return (← entry (units type) u, ← makeTinfl type u .UNITS)
  | some t =>
    if t = 49 then do return (← entry (teens type) u, ← makeTinfl type u .TEENS)
    else if u = 48 then do
      let _ ← entry (units type) u
      let _ ← makeTinfl type u .UNITS
      return (b!"", b!"")
    else do return (← entry (units type) u, ← makeTinfl type u .UNITS)

/-- The tens of a group put before its units.

`tools/translators/transferer/numconversion.cpp`, lines 782–788 -/
def groupTens (type : Form) (t : Byte) (p : Pair) : Option Pair :=
  if t ≠ 48 ∧ t ≠ 49 then do
    return (← prepend p.1 (← entry (tens type) t) type,
      ← prepend p.2 (← makeTinfl type t .TENS) type)
  else some p

/-- The hundreds of a group put before the rest.

`tools/translators/transferer/numconversion.cpp`, lines 791–806 -/
def groupHundreds (type : Form) (h : Byte) (p : Pair) : Option Pair :=
  if h = 48 then some p
  else do
    let nt ← if p.1 ≠ [] then lonehundred type else some type
    let te ← prepend p.1 (← entry (hundreds nt) h) nt
    let ti ←
      if nt = .CARDINAL ∧ type ≠ .CARDINAL then prepend p.2 b!"0" nt
      else do prepend p.2 (← makeTinfl nt h .HUNDREDS) nt
    return (te, ti)

/-- The inflection of what stands before a noun.

`tools/translators/transferer/numconversion.cpp`, lines 792–793, 809–810 -/
def groupDone (type : Form) (p : Pair) : Pair :=
  if type = .BEFORE_NOUN then (p.1, b!"0") else p

/-- The words of up to three digits.  Only the last of them is looked at
whether it is a digit.

`tools/translators/transferer/numconversion.cpp`, lines 753–811 -/
def convertThreeDigitGroup (type : Form) (n : Str) : Option Pair :=
  match n with
  | [] => some (b!"", b!"")
  | [u] =>
    if !isDigit u then some (b!"#", b!"")
    else do return groupDone type (← groupUnits type none u)
  | [t, u] =>
    if !isDigit u then some (b!"#", b!"")
    else do return groupDone type (← groupTens type t (← groupUnits type (some t) u))
  | [h, t, u] =>
    if !isDigit u then some (b!"#", b!"")
    else do
      return groupDone type
        (← groupHundreds type h (← groupTens type t (← groupUnits type (some t) u)))
  | _ => some (b!"#", b!"")

/-- What the last digit of a group and the ones before it, the nearest first,
ask of the noun.

`tools/translators/transferer/numconversion.cpp`, lines 819–847 -/
def governed (u : Byte) (before : Str) : Option Government :=
  if u = 48 then
    if before.any (· ≠ 48) then some .PIEC else some .ZERO
  else if u = 49 then
    if before.any (· ≠ 48) then some .PIEC else some .JEDEN
  else if u = 50 ∨ u = 51 ∨ u = 52 then
    if before.head? = some 49 then some .PIEC else some .DWA
  else if isDigit u then some .PIEC
  else none

/-- How a number of up to three digits governs its noun; `none` for the -1 of
the code.

`tools/translators/transferer/numconversion.cpp`, lines 813–848 -/
def selectGovernment (n : Str) : Option Government :=
  match n.reverse with
  | [] => none
  | u :: before => if 2 < before.length ∨ !isDigit u then none else governed u before

/-- A part of a cardinal number.

`tools/translators/transferer/numconversion.cpp`, lines 850–880 -/
def convertCardinalPart (n : Str) (rank : Nat) : Option Pair := do
  let p ← convertThreeDigitGroup .CARDINAL n
  match selectGovernment n with
  | some .ZERO => return (b!"", b!"")
  | some .JEDEN => makeLargeUnit .CARDINAL rank
  | some .DWA =>
    let s ← makeLargeUnit .CARDINAL_NPL rank
    return (p.1 ++ (b!" " ++ s.1), p.2 ++ (b!" " ++ s.2))
  | some .PIEC =>
    let s ← makeLargeUnit .CARDINAL_GPL rank
    return (p.1 ++ (b!" " ++ s.1), p.2 ++ (b!" " ++ s.2))
  | none => return (b!"#", b!"")

/-- The form of what stands before the name of a power of a thousand.  The two
last forms of the ordinals have no entry in the table, so they get its zero.

`tools/translators/transferer/numconversion.cpp`, lines 888–889 -/
def highType : Form → Option Form
  | .CARDINAL => some .CARDINAL
  | .ORDINAL => some .BEFORE_NOUN
  | .CARDINAL_G => some .CARDINAL_G
  | .ORDINAL_F => some .BEFORE_NOUN
  | .ORDINAL_NPL => some .CARDINAL
  | .ORDINAL_GPL => some .CARDINAL
  | .BEFORE_NOUN => some .CARDINAL
  | _ => none

/-- A part of any other number.

`tools/translators/transferer/numconversion.cpp`, lines 882–917 -/
def convertNoncardinalPart (type : Form) (n : Str) (rank : Nat) : Option Pair := do
  let p ← convertThreeDigitGroup (← highType type) n
  match selectGovernment n with
  | some .ZERO => return (b!"", b!"")
  | some .JEDEN => makeLargeUnit type rank
  | some .DWA | some .PIEC =>
    if type = .CARDINAL_G then
      let s ← makeLargeUnit .CARDINAL_GPL rank
      return (p.1 ++ (b!" " ++ s.1), p.2 ++ b!" 0")
    else
      let s ← makeLargeUnit type rank
      return (p.1 ++ s.1, s.2)
  | none => return (b!"#", b!"")

/-- A part of a number: the digits `n` with `rank` groups after them.

`tools/translators/transferer/numconversion.cpp`, lines 919–946 -/
def convertPart (type : Form) (n : Str) (rank : Nat) : Option Pair :=
  if rank = 0 then convertThreeDigitGroup type n
  else
    match type with
    | .CARDINAL | .BEFORE_NOUN => convertCardinalPart n rank
    | .ORDINAL | .ORDINAL_F | .ORDINAL_NPL | .ORDINAL_GPL | .CARDINAL_G =>
      convertNoncardinalPart type n rank
    | _ => some (b!"#", b!"")

/-- Whether the digits after a comma are a half.

`tools/translators/transferer/numconversion.cpp`, lines 948–960 -/
def equalsOneHalf (s : Str) : Bool :=
  match s with
  | [] => false
  | c :: rest => if c ≠ 53 then false else rest.all (· = 48)

/-- `tools/translators/transferer/numconversion.cpp`, lines 967–979 -/
def zero : Form → Pair
  | .CARDINAL => (b!"zero", b!"R:5")
  | .ORDINAL => (b!"zerowy", b!"P")
  | .CARDINAL_G => (b!"zera", b!"0")
  | .ORDINAL_F => (b!"zerowa", b!"zerowy_P")
  | .ORDINAL_NPL => (b!"zerowe", b!"zerowy_P")
  | .ORDINAL_GPL => (b!"zerowych", b!"zerowy_P")
  | .BEFORE_NOUN => (b!"zero", b!"0")
  | .CARDINAL_NPL => (b!"", b!"")
  | .CARDINAL_GPL => (b!"", b!"")
  | .CARDINAL_F => (b!"zero", b!"R:5")
  | .CARDINAL_FG => (b!"zera", b!"0")

/-- `tools/translators/transferer/numconversion.cpp`, lines 980–992 -/
def jeden : Form → Pair
  | .CARDINAL => (b!"jeden", b!"ZP:z")
  | .ORDINAL => (b!"pierwszy", b!"LP-P")
  | .CARDINAL_G => (b!"jednego", b!"0")
  | .ORDINAL_F => (b!"pierwsza", b!"pierwszy_LP")
  | .ORDINAL_NPL => (b!"pierwsze", b!"pierwszy_LP")
  | .ORDINAL_GPL => (b!"pierwszych", b!"pierwszy_LP")
  | .BEFORE_NOUN => (b!"jedno", b!"0")
  | .CARDINAL_NPL => (b!"", b!"")
  | .CARDINAL_GPL => (b!"", b!"")
  | .CARDINAL_F => (b!"jedna", b!"ZP:z")
  | .CARDINAL_FG => (b!"jednej", b!"ZP:z")

/-- The form of what stands before the last part.

`tools/translators/transferer/numconversion.cpp`, lines 993–997 -/
def higherUnits : Form → Form
  | .CARDINAL_G | .CARDINAL_FG => .CARDINAL_G
  | _ => .CARDINAL

/-- The loop over the groups, from the last one.  `rest` is the part of the
digits not yet taken, of which the code keeps the length less three in `i`.
The first argument bounds the steps.

`tools/translators/transferer/numconversion.cpp`, lines 1029–1040 -/
def integerLoop : Nat → Form → Nat → Str → Pair → Option Pair
  | 0, _, _, _, _ => none
  | fuel + 1, nt, rank, rest, p =>
    if 3 < rest.length then do
      let sub ← convertPart nt (rest.drop (rest.length - 3)) rank
      let nt' := if sub.1 ≠ [] then higherUnits nt else nt
      let te ← prepend p.1 sub.1 .CARDINAL
      let ti ← prepend p.2 sub.2 .CARDINAL
      integerLoop fuel nt' (rank + 1) (rest.take (rest.length - 3)) (te, ti)
    else do
      let sub ← convertPart nt rest rank
      return (← prepend p.1 sub.1 .CARDINAL, ← prepend p.2 sub.2 .CARDINAL)

/-- The form in which the groups are written at first.

`tools/translators/transferer/numconversion.cpp`, lines 1018–1022 -/
def firstForm : Form → Form
  | .CARDINAL_F => .CARDINAL
  | .CARDINAL_FG => .CARDINAL_G
  | t => t

/-- The feminine of two at the end.  Of an inflection of less than four
characters the code would take all.

`tools/translators/transferer/numconversion.cpp`, lines 1042–1048 -/
def feminine (p : Pair) : Pair :=
  if 3 ≤ p.1.length ∧ p.1.drop (p.1.length - 3) = b!"dwa" then
    (p.1.take (p.1.length - 3) ++ b!"dwie",
      (if p.2.length < 4 then p.2 else p.2.take (p.2.length - 4)) ++ b!"dwa_LG:z")
  else p

/-- An integer in words.

`tools/translators/transferer/numconversion.cpp`, lines 962–1049 -/
def integer2pltext (type : Form) (n : Str) : Option Pair :=
  if n.any (fun c => !isDigit c) then some (b!"#", b!"")
  else do
    if ← equals n 48 then return zero type
    if ← equals n 49 then return jeden type
    let p ← integerLoop n.length (firstForm type) 0 n (b!"", b!"")
    return if type = .CARDINAL_F then feminine p else p

/-- `tools/translators/transferer/numconversion.cpp`, line 1056 -/
def denominator : List Str := [b!"", b!"dziesiąt", b!"setn", b!"tysięczn"]

/-- The digits after a comma as tenths, hundredths or thousandths.  The code
calls it for a cardinal number in the nominative or in the genitive only.

`tools/translators/transferer/numconversion.cpp`, lines 1051–1084 -/
def fractional2pltext (type : Form) (n : Str) : Option Pair := do
  let p ← integer2pltext (if type = .CARDINAL then .CARDINAL_F else .CARDINAL_FG) n
  let d ← denominator[n.length]?
  let te :=
    match selectGovernment n with
    | some .JEDEN => d ++ (if type = .CARDINAL then b!"a" else b!"ej")
    | some .DWA => d ++ (if type = .CARDINAL then b!"e" else b!"ych")
    | some .ZERO | some .PIEC => d ++ b!"ych"
    | none => b!"#"
  return join2 p (te, d ++ b!"y_LP")

/-- The zeros put before the digits after a comma.

`tools/translators/transferer/numconversion.cpp`, lines 1119–1122 -/
def zerosBefore : Str → Pair → Option Pair
  | [], p => some p
  | c :: rest, p =>
    if c = 48 then do
      zerosBefore rest (← prepend p.1 b!"zero" .CARDINAL, ← prepend p.2 b!"0" .CARDINAL)
    else some p

/-- A number with a comma or without.  `init` is what the caller has in the
results before the call: they may be left as they are.

`tools/translators/transferer/numconversion.cpp`, lines 1086–1124 -/
def decimalfraction2pltext (type : Form) (n : Str) (init : Pair) : Option Pair :=
  match n.span (· ≠ 44) with
  | (_, []) => integer2pltext type n
  | (n0, _ :: n1) => do
    let p0 ← integer2pltext type n0
    if equalsOneHalf n1 then
      if type = .BEFORE_NOUN then
        return if p0.1 ≠ b!"#" then (p0.1 ++ b!"ipół", init.2) else init
      else return join2 p0 (b!"i pół", b!"0 0")
    else if type ≠ .CARDINAL ∧ type ≠ .CARDINAL_G then return init
    else if n1.length ≤ 3 then
      return join3 p0 (b!"i", b!"0") (← fractional2pltext type n1)
    else
      return join3 p0 (b!"przecinek", b!"0") (← zerosBefore n1 (← integer2pltext .CARDINAL n1))

/-- What the caller gets. -/
structure Result where
  /-- the text -/
  equiv : Str
  /-- its inflection -/
  infl : Str
  /-- its syntax -/
  syn : Str
  deriving DecidableEq, Repr

/-- The result on a failure. -/
def Result.failed : Result := ⟨b!"#", b!"", b!""⟩

/-- The first byte put apart: the parts before and after the first `c`. -/
def splitAt? (c : Byte) (n : Str) : Option (Str × Str) :=
  match n.span (· ≠ c) with
  | (_, []) => none
  | (a, _ :: b) => some (a, b)

/-- A sum.

`tools/translators/transferer/numconversion.cpp`, lines 1160–1171 -/
def sumText (type : Form) (n0 n1 : Str) : Option Result :=
  if type ≠ .CARDINAL then some .failed
  else do
    let p0 ← decimalfraction2pltext type n0 (b!"", b!"")
    let p1 ← decimalfraction2pltext type n1 (b!"", b!"")
    let p := join3 p0 (b!"plus", b!"0") p1
    return ⟨p.1, p.2, b!""⟩

/-- A difference or a range.

`tools/translators/transferer/numconversion.cpp`, lines 1173–1190 -/
def rangeText (type : Form) (n0 n1 : Str) : Option Result :=
  if type ≠ .CARDINAL then some .failed
  else if bigger n0 n1 then do
    let p0 ← decimalfraction2pltext type n0 (b!"", b!"")
    let p1 ← decimalfraction2pltext type n1 (b!"", b!"")
    let p := join3 p0 (b!"minus", b!"0") p1
    return ⟨p.1, p.2, b!""⟩
  else do
    let p0 ← decimalfraction2pltext .CARDINAL_G n0 (b!"", b!"")
    let p1 ← decimalfraction2pltext .CARDINAL_G n1 (b!"", b!"")
    let p := join4 (b!"od", b!"0") p0 (b!"do", b!"0") p1
    return ⟨p.1, p.2, b!""⟩

/-- A fraction.

`tools/translators/transferer/numconversion.cpp`, lines 1192–1216 -/
def fractionText (type : Form) (n0 n1 : Str) : Option Result :=
  if type ≠ .CARDINAL then some .failed
  else do
    let p0 ← integer2pltext .CARDINAL_F n0
    match selectGovernment n0 with
    | none => return .failed
    | some g =>
      let form : Form :=
        match g with
        | .JEDEN => .ORDINAL_F
        | .DWA => .ORDINAL_NPL
        | .ZERO | .PIEC => .ORDINAL_GPL
      let p := join2 p0 (← integer2pltext form n1)
      return ⟨p.1, p.2, b!"R=4"⟩

/-- A number without a sign before it or a per cent after it.

`tools/translators/transferer/numconversion.cpp`, lines 1159–1217 -/
def plainText (type : Form) (n : Str) : Option Result :=
  match splitAt? 43 n with
  | some (n0, n1) => sumText type n0 n1
  | none =>
    match splitAt? 45 n with
    | some (n0, n1) => rangeText type n0 n1
    | none =>
      match splitAt? 47 n with
      | some (n0, n1) => fractionText type n0 n1
      | none => do
        let p ← decimalfraction2pltext type n (b!"#", b!"")
        return ⟨p.1, p.2, b!""⟩

/-- A word put before a result.

`tools/translators/transferer/numconversion.cpp`, lines 1140–1142, 1146–1148 -/
def signed (w : Str) (r : Result) : Option Result := do
  return ⟨← prepend r.equiv w .CARDINAL, ← prepend r.infl b!"0" .CARDINAL, r.syn⟩

/-- A number in words; the first argument bounds the steps.

`tools/translators/transferer/numconversion.cpp`, lines 1126–1217 -/
def numLoop : Nat → Form → Str → Option Result
  | 0, _, _ => none
  | _ + 1, _, [] => some .failed
  | fuel + 1, type, c :: rest =>
    if c = 45 then do signed b!"minus" (← numLoop fuel type rest)
    else if c = 43 then do signed b!"plus" (← numLoop fuel type rest)
    else if (c :: rest).getLast? = some 37 then
      if type ≠ .CARDINAL then some .failed
      else do
        let r ← numLoop fuel type (c :: rest).dropLast
        return ⟨r.equiv ++ b!" procent", r.infl ++ b!" 0", r.syn⟩
    else plainText type (c :: rest)

/-- A number in words.

`tools/translators/transferer/numconversion.cpp`, lines 1126–1217 -/
def num2pltext (type : Form) (n : Str) : Option Result := numLoop (n.length + 1) type n

end Verif.Numconv
