import Verif.Numconv.Text

/-!
# Polish numerals

How Polish words are read as a number, apart from how the code writes them.
-/

namespace Verif.Numconv.Spec

/-- A text of digits. -/
def Digits (n : Str) : Prop := n ≠ [] ∧ ∀ c ∈ n, 48 ≤ c.toNat ∧ c.toNat ≤ 57

instance (n : Str) : Decidable (Digits n) := inferInstanceAs (Decidable (_ ∧ _))

/-- The number digits write. -/
def value (n : Str) : Nat := n.foldl (fun v c => 10 * v + (c.toNat - 48)) 0

/-- The words of a text, which stand between blanks. -/
def words (t : Str) : List Str := if t = [] then [] else t.splitOn 32

/-- The case of a numeral. -/
inductive Case where
  | nominative
  | genitive
  deriving DecidableEq, Repr

/-- The words of the numbers below a thousand which have one. -/
def small : Case → List (Str × Nat)
  | .nominative =>
    [(b!"jeden", 1), (b!"dwa", 2), (b!"trzy", 3), (b!"cztery", 4), (b!"pięć", 5), (b!"sześć", 6),
     (b!"siedem", 7), (b!"osiem", 8), (b!"dziewięć", 9), (b!"dziesięć", 10),
     (b!"jedenaście", 11), (b!"dwanaście", 12), (b!"trzynaście", 13), (b!"czternaście", 14),
     (b!"piętnaście", 15), (b!"szesnaście", 16), (b!"siedemnaście", 17), (b!"osiemnaście", 18),
     (b!"dziewiętnaście", 19), (b!"dwadzieścia", 20), (b!"trzydzieści", 30),
     (b!"czterdzieści", 40), (b!"pięćdziesiąt", 50), (b!"sześćdziesiąt", 60),
     (b!"siedemdziesiąt", 70), (b!"osiemdziesiąt", 80), (b!"dziewięćdziesiąt", 90),
     (b!"sto", 100), (b!"dwieście", 200), (b!"trzysta", 300), (b!"czterysta", 400),
     (b!"pięćset", 500), (b!"sześćset", 600), (b!"siedemset", 700), (b!"osiemset", 800),
     (b!"dziewięćset", 900)]
  | .genitive =>
    [(b!"jeden", 1), (b!"dwóch", 2), (b!"trzech", 3), (b!"czterech", 4), (b!"pięciu", 5),
     (b!"sześciu", 6), (b!"siedmiu", 7), (b!"ośmiu", 8), (b!"dziewięciu", 9),
     (b!"dziesięciu", 10), (b!"jedenastu", 11), (b!"dwunastu", 12), (b!"trzynastu", 13),
     (b!"czternastu", 14), (b!"piętnastu", 15), (b!"szesnastu", 16), (b!"siedemnastu", 17),
     (b!"osiemnastu", 18), (b!"dziewiętnastu", 19), (b!"dwudziestu", 20), (b!"trzydziestu", 30),
     (b!"czterdziestu", 40), (b!"pięćdziesięciu", 50), (b!"sześćdziesięciu", 60),
     (b!"siedemdziesięciu", 70), (b!"osiemdziesięciu", 80), (b!"dziewięćdziesięciu", 90),
     (b!"stu", 100), (b!"dwustu", 200), (b!"trzystu", 300), (b!"czterystu", 400),
     (b!"pięciuset", 500), (b!"sześciuset", 600), (b!"siedmiuset", 700), (b!"ośmiuset", 800),
     (b!"dziewięciuset", 900)]

/-- The number a noun gets after a numeral. -/
inductive Agreement where
  /-- one -/
  | one
  /-- two, three, four and those ending so, but not in a teen -/
  | few
  /-- all the others -/
  | many
  deriving DecidableEq, Repr

/-- What a number asks of its noun. -/
def agreement (g : Nat) : Agreement :=
  if g = 1 then .one
  else if 2 ≤ g % 10 ∧ g % 10 ≤ 4 ∧ ¬ (12 ≤ g % 100 ∧ g % 100 ≤ 14) then .few
  else .many

/-- The stems of the million, the billion and so on, with their `l`. -/
def latin (k : Nat) : Str :=
  if k < 10 then
    [b!"", b!"mil", b!"bil", b!"tryl", b!"kwadryl", b!"kwintyl", b!"sekstyl", b!"septyl",
     b!"oktyl", b!"nonyl"].getD k []
  else
    [b!"", b!"un", b!"duo", b!"tre", b!"kwattuor", b!"kwin", b!"seks", b!"septen", b!"okto",
      b!"nowem"].getD (k % 10) []
    ++ [b!"", b!"dec", b!"wigint", b!"trigint", b!"kwadragint", b!"kwinkwagint", b!"seksagint",
      b!"septuagint", b!"oktogint", b!"nowemgint", b!"cent"].getD (k / 10) []
    ++ b!"yl"

/-- The stem of the name of the `r`-th power of a thousand in the long scale,
for `r` above one: `10 ^ (6 k)` ends in -ion, a thousand of it in -iard. -/
def powerStem (r : Nat) : Str := latin (r / 2) ++ (if r % 2 = 0 then b!"ion" else b!"iard")

/-- The name of the `r`-th power of a thousand. -/
def power (c : Case) (a : Agreement) (r : Nat) : Str :=
  if r = 1 then
    match c, a with
    | .nominative, .one => b!"tysiąc"
    | .nominative, .few => b!"tysiące"
    | .genitive, .one => b!"tysiąca"
    | _, _ => b!"tysięcy"
  else
    powerStem r ++
      match c, a with
      | .nominative, .one => b!""
      | .nominative, .few => b!"y"
      | .genitive, .one => b!"a"
      | _, _ => b!"ów"

/-- Whether the word of `v` may follow what makes `cur` in the same group. -/
def fits (cur v : Nat) : Bool :=
  if v < 10 then cur % 10 = 0 && cur % 100 ≠ 10
  else if v < 100 then cur % 100 = 0
  else cur = 0

/-- Reads one more word: the first number of the state is what the groups
closed by a power of a thousand make, the second what the words after them
make.  A power stands after a group other than one, or alone, and below the
powers before it. -/
def readWord (c : Case) (s : Nat × Nat) (w : Str) : Option (Nat × Nat) :=
  match (small c).lookup w with
  | some v => if fits s.2 v then some (s.1, s.2 + v) else none
  | none =>
    let g := if s.2 = 0 then 1 else s.2
    match (List.range 220).find? fun r => r ≠ 0 && power c (agreement g) r = w with
    | some r => if s.1 % 1000 ^ (r + 1) = 0 ∧ s.2 ≠ 1 then some (s.1 + g * 1000 ^ r, 0) else none
    | none => none

/-- Reads the words of a number which is neither zero nor spelled apart. -/
def readWords (c : Case) (ws : List Str) : Option Nat :=
  (ws.foldlM (readWord c) (0, 0)).map fun s => s.1 + s.2

/-- The numerals which agree with a noun. -/
inductive Kind where
  | masculine
  | feminine
  | genitive
  | genitiveFeminine
  deriving DecidableEq, Repr

/-- Reads a numeral.  The feminine of two stands at the end only. -/
def read (k : Kind) (ws : List Str) : Option Nat :=
  match k with
  | .masculine =>
    if ws = [] then none
    else if ws = [b!"zero"] then some 0
    else readWords .nominative ws
  | .feminine =>
    if ws = [] ∨ ws = [b!"jeden"] ∨ ws.getLast? = some b!"dwa" then none
    else if ws = [b!"zero"] then some 0
    else if ws = [b!"jedna"] then some 1
    else if ws.getLast? = some b!"dwie" then readWords .nominative (ws.dropLast ++ [b!"dwa"])
    else readWords .nominative ws
  | .genitive =>
    if ws = [] ∨ ws = [b!"jeden"] then none
    else if ws = [b!"zera"] then some 0
    else if ws = [b!"jednego"] then some 1
    else readWords .genitive ws
  | .genitiveFeminine =>
    if ws = [] ∨ ws = [b!"jeden"] then none
    else if ws = [b!"zera"] then some 0
    else if ws = [b!"jednej"] then some 1
    else readWords .genitive ws

/-! ### Ordinal numbers -/

/-- The forms of an ordinal number. -/
inductive Gender where
  | masculine
  | feminine
  | plural
  | genitivePlural
  deriving DecidableEq, Repr

/-- How an adjective is declined after its stem. -/
inductive Stem where
  /-- like *piąty* -/
  | hard
  /-- like *drugi* -/
  | velar
  /-- like *trzeci* -/
  | soft
  deriving DecidableEq, Repr

/-- The ending of an adjective. -/
def ending : Stem → Gender → Str
  | .hard, .masculine => b!"y"
  | .hard, .feminine => b!"a"
  | .hard, .plural => b!"e"
  | .hard, .genitivePlural => b!"ych"
  | .velar, .masculine => b!"i"
  | .velar, .feminine => b!"a"
  | .velar, .plural => b!"ie"
  | .velar, .genitivePlural => b!"ich"
  | .soft, .masculine => b!"i"
  | .soft, .feminine => b!"ia"
  | .soft, .plural => b!"ie"
  | .soft, .genitivePlural => b!"ich"

/-- The stems of the ordinal numbers below a thousand which have their own
word, all of them hard but the second and the third. -/
def ordinalStems : List (Nat × Str) :=
  [(0, b!"zerow"), (1, b!"pierwsz"), (2, b!"drug"), (3, b!"trzec"), (4, b!"czwart"),
   (5, b!"piąt"), (6, b!"szóst"), (7, b!"siódm"), (8, b!"ósm"), (9, b!"dziewiąt"),
   (10, b!"dziesiąt"), (11, b!"jedenast"), (12, b!"dwunast"), (13, b!"trzynast"),
   (14, b!"czternast"), (15, b!"piętnast"), (16, b!"szesnast"), (17, b!"siedemnast"),
   (18, b!"osiemnast"), (19, b!"dziewiętnast"), (20, b!"dwudziest"), (30, b!"trzydziest"),
   (40, b!"czterdziest"), (50, b!"pięćdziesiąt"), (60, b!"sześćdziesiąt"),
   (70, b!"siedemdziesiąt"), (80, b!"osiemdziesiąt"), (90, b!"dziewięćdziesiąt"),
   (100, b!"setn"), (200, b!"dwusetn"), (300, b!"trzysetn"), (400, b!"czterysetn"),
   (500, b!"pięćsetn"), (600, b!"sześćsetn"), (700, b!"siedemsetn"), (800, b!"osiemsetn"),
   (900, b!"dziewięćsetn")]

/-- An ordinal number of one word. -/
def ordinalWord (f : Gender) (v : Nat) : Str :=
  (ordinalStems.lookup v).getD []
    ++ ending (if v = 2 then .velar else if v = 3 then .soft else .hard) f

/-- The ordinal of a power of a thousand. -/
def ordinalPower (f : Gender) (r : Nat) : Str :=
  (if r = 1 then b!"tysięczn" else powerStem r ++ b!"ow") ++ ending .hard f

/-- What stands for a number at the start of a compound word. -/
def prefixes : List (Nat × Str) :=
  [(1, b!"jedno"), (2, b!"dwu"), (3, b!"trzy"), (4, b!"cztero"), (5, b!"pięcio"),
   (6, b!"sześcio"), (7, b!"siedmio"), (8, b!"ośmio"), (9, b!"dziewięcio"),
   (10, b!"dziesięcio"), (11, b!"jedenasto"), (12, b!"dwunasto"), (13, b!"trzynasto"),
   (14, b!"czternasto"), (15, b!"piętnasto"), (16, b!"szesnasto"), (17, b!"siedemnasto"),
   (18, b!"osiemnasto"), (19, b!"dziewiętnasto"), (20, b!"dwudziesto"), (30, b!"trzydziesto"),
   (40, b!"czterdziesto"), (50, b!"pięćdziesięcio"), (60, b!"sześćdziesięcio"),
   (70, b!"siedemdziesięcio"), (80, b!"osiemdziesięcio"), (90, b!"dziewięćdziesięcio"),
   (100, b!"stu"), (200, b!"dwustu"), (300, b!"trzystu"), (400, b!"czterystu"),
   (500, b!"pięćset"), (600, b!"sześćset"), (700, b!"siedemset"), (800, b!"osiemset"),
   (900, b!"dziewięćset")]

/-- The numbers with their own word which make a number below a hundred. -/
def parts (v : Nat) : List Nat :=
  if v < 20 then [v].filter (· ≠ 0) else [v / 10 * 10, v % 10].filter (· ≠ 0)

/-- A number below a thousand at the start of a compound word. -/
def compound (g : Nat) : Str :=
  (([g / 100 * 100].filter (· ≠ 0) ++ parts (g % 100)).map fun v =>
    (prefixes.lookup v).getD []).flatten

/-- The cardinal word of a number which has its own. -/
def cardinalWord (v : Nat) : Str :=
  (((small .nominative).find? fun e => e.2 = v).map (·.1)).getD []

/-- The words which end an ordinal number whose last group not of zeros is
`g`, with `r` groups after it.  In the last group the tens and the units are
ordinals, the hundreds only when alone; a power of a thousand makes one word
with its number. -/
def ordinalTail (f : Gender) (g r : Nat) : List Str :=
  if r = 0 then
    if g % 100 = 0 then [ordinalWord f g]
    else (if g < 100 then [] else [cardinalWord (g / 100 * 100)])
      ++ (parts (g % 100)).map (ordinalWord f)
  else [(if g = 1 then b!"" else compound g) ++ ordinalPower f r]

/-- Words are the ordinal of a number: a cardinal number, and the end for its
last group not of zeros. -/
def IsOrdinal (f : Gender) (ws : List Str) (v : Nat) : Prop :=
  (v = 0 ∧ ws = [ordinalWord f 0]) ∨
  ∃ front a g r, ws = front ++ ordinalTail f g r ∧ readWords .nominative front = some a ∧
    0 < g ∧ g < 1000 ∧ a % 1000 ^ (r + 1) = 0 ∧ v = a + g * 1000 ^ r

/-! ### Numbers with a comma and what is made of them -/

/-- The kind of the whole part of a number. -/
def wholeKind : Case → Kind
  | .nominative => .masculine
  | .genitive => .genitive

/-- The kind of the numerator of a fraction. -/
def partKind : Case → Kind
  | .nominative => .feminine
  | .genitive => .genitiveFeminine

/-- The tenths, the hundredths, the thousandths, as many as the numerator
asks for. -/
def decimalPart (c : Case) (places : Nat) (a : Agreement) : Str :=
  (match places with
    | 1 => b!"dziesiąt"
    | 2 => b!"setn"
    | _ => b!"tysięczn")
  ++ match c, a with
    | .nominative, .one => b!"a"
    | .nominative, .few => b!"e"
    | .genitive, .one => b!"ej"
    | _, _ => b!"ych"

/-- Digits after a comma which make a half. -/
def IsHalf (n : Str) : Prop := ∃ k, n = 53 :: List.replicate k 48

/-- What words say of a number which may have a comma. -/
inductive SaysDecimal (c : Case) : Str → List Str → Prop
  /-- a whole number -/
  | whole {n : Str} {ws : List Str} : Digits n → read (wholeKind c) ws = some (value n) →
    SaysDecimal c n ws
  /-- a number and a half -/
  | half {n0 n1 : Str} {ws : List Str} : Digits n0 → IsHalf n1 →
    read (wholeKind c) ws = some (value n0) →
    SaysDecimal c (n0 ++ 44 :: n1) (ws ++ [b!"i", b!"pół"])
  /-- a number and some tenths, hundredths or thousandths -/
  | short {n0 n1 : Str} {ws0 ws1 : List Str} : Digits n0 → Digits n1 → n1.length ≤ 3 →
    ¬ IsHalf n1 → read (wholeKind c) ws0 = some (value n0) →
    read (partKind c) ws1 = some (value n1) →
    SaysDecimal c (n0 ++ 44 :: n1)
      (ws0 ++ [b!"i"] ++ ws1 ++ [decimalPart c n1.length (agreement (value n1))])
  /-- a number, and after the comma zeros one by one and the rest of the digits as
  one number -/
  | long {n0 rest : Str} {k : Nat} {ws0 ws1 : List Str} : Digits n0 →
    (rest = [] ∨ Digits rest) → rest.head? ≠ some 48 → 3 < k + rest.length →
    ¬ IsHalf (List.replicate k 48 ++ rest) → read (wholeKind c) ws0 = some (value n0) →
    (rest = [] → ws1 = []) → (rest ≠ [] → read .masculine ws1 = some (value rest)) →
    SaysDecimal c (n0 ++ 44 :: (List.replicate k 48 ++ rest))
      (ws0 ++ [b!"przecinek"] ++ List.replicate k b!"zero" ++ ws1)

/-- A number in digits, with a comma or without, which is not too big and of
which the digits after the comma are not more than three zeros. -/
def Decimal (n : Str) : Prop :=
  (Digits n ∧ value n < 10 ^ 660) ∨
  ∃ n0 n1, n = n0 ++ 44 :: n1 ∧ Digits n0 ∧ Digits n1 ∧ value n0 < 10 ^ 660 ∧
    value n1 < 10 ^ 660 ∧ (n1.length ≤ 3 ∨ value n1 ≠ 0)

/-- The gender of the ordinal in a fraction with a numerator. -/
def fractionGender : Agreement → Gender
  | .one => .feminine
  | .few => .plural
  | .many => .genitivePlural

/-! ### Missing digits -/

/-- A number with a comma or without, in which digits are missing. -/
inductive Incomplete : Str → Prop
  /-- there is nothing -/
  | nothing : Incomplete []
  /-- nothing before the comma -/
  | before (b : Str) : Incomplete (44 :: b)
  /-- nothing after the comma -/
  | after {a : Str} : 44 ∉ a → Incomplete (a ++ [44])

/-- A text without the signs before it. -/
def unsigned (n : Str) : Str := n.dropWhile fun c => c = 43 || c = 45

/-- A text without the signs before it and the per cents after it. -/
def body (n : Str) : Str := ((unsigned n).reverse.dropWhile fun c => c = 37).reverse

/-- A cardinal number in which digits are missing: in a part of a sum, of a
difference or of a range, in a fraction, or in itself. -/
def MissingCardinal (n : Str) : Prop :=
  body n ≠ [] ∧
  ((∃ a b, body n = a ++ 43 :: b ∧ 43 ∉ a ∧ (Incomplete a ∨ Incomplete b)) ∨
   (43 ∉ body n ∧ ∃ a b, body n = a ++ 45 :: b ∧ 45 ∉ a ∧ (Incomplete a ∨ Incomplete b)) ∨
   (43 ∉ body n ∧ 45 ∉ body n ∧ ∃ a b, body n = a ++ 47 :: b ∧ 47 ∉ a ∧
      (a = [] ∨
        b = [] ∧ a.length ≤ 3 ∧ ∃ d, a.getLast? = some d ∧ 48 ≤ d.toNat ∧ d.toNat ≤ 57)) ∨
   (43 ∉ body n ∧ 45 ∉ body n ∧ 47 ∉ body n ∧ Incomplete (body n)))

/-- Any other number with nothing before its comma. -/
def MissingOther (n : Str) : Prop :=
  (∃ b, unsigned n = 44 :: b) ∧ (unsigned n).getLast? ≠ some 37 ∧ 43 ∉ unsigned n ∧
    45 ∉ unsigned n ∧ 47 ∉ unsigned n

/-! ### Comparing -/

/-- Digits without a zero before them. -/
def Plain (n : Str) : Prop := Digits n ∧ (n.head? = some 48 → n.length = 1)

/-- Whether `w0,f0` is more than `w1,f1`. -/
def Greater (w0 f0 w1 f1 : Str) : Prop :=
  (value w1 * 10 ^ f1.length + value f1) * 10 ^ f0.length
    < (value w0 * 10 ^ f0.length + value f0) * 10 ^ f1.length

end Verif.Numconv.Spec
