import Verif.Irstlm.Dict
import Mathlib.Data.List.Dedup

/-! # What is claimed of dictionaries -/

namespace Verif.Irstlm

/-- The word with a code. -/
def HasWord (d : Dict) (c : Nat) (w : Str) : Prop := d.tb[c]?.map Entry.word = some w

/-- A word of the dictionary. -/
def Known (d : Dict) (w : Str) : Prop := ∃ c, HasWord d c w

/-- The code of a word: the first entry with it. -/
def IsCode (d : Dict) (w : Str) (c : Nat) : Prop := HasWord d c w ∧ ∀ j < c, ¬ HasWord d j w

/-- The dictionaries that come about. -/
inductive DictReach (size : Nat) : Dict → Prop
  | new (f : Option (Str → Option Nat)) : DictReach size (Dict.new size f)
  | encode {d w c e} : DictReach size d → d.encode w = .ok (c, e) → DictReach size e
  | incflag {d} (v : Bool) : DictReach size d → DictReach size (d.incflag v)
  | oovcode {d} (v : Nat) : DictReach size d → DictReach size (d.setOovcode v)
  | incfreq {d c v e} : DictReach size d → d.incfreq c v = .ok e → DictReach size e
  | freq {d c v e} : DictReach size d → d.setFreq c v = .ok e → DictReach size e
  | generate {d is text e} : DictReach size d → d.generate is text = .ok e → DictReach size e
  | load {d text e} : DictReach size d → d.load text = .ok e → DictReach size e

/-- The words of a text: what is between white space. -/
def textWords (s : Str) : List Str :=
  (s.splitOnP fun c => c == 32 || (9 ≤ c && c ≤ 13)).filter (· ≠ [])

/-- The words in the order of their first occurrences. -/
def firstWords (seen : List Str) : List Str := seen.reverse.dedup.reverse

/-- The words of a dictionary with their frequencies. -/
def Dict.counts (d : Dict) : List (Str × Int) := d.tb.map fun e => (e.word, e.freq)

/-- A word that can be written to a file and read again. -/
def Writable (w : Str) : Prop :=
  w ≠ [] ∧ w.length < 999 ∧ ∀ c ∈ w, c ≠ 0 ∧ c ≠ 32 ∧ ¬ (9 ≤ c ∧ c ≤ 13)

/-- The code for unknown words is that of `<unk>`, if there is one. -/
def OovRight (d : Dict) : Prop :=
  (d.oovCode = none ∧ ¬ Known d oov) ∨ ∃ c, d.oovCode = some c ∧ IsCode d oov c

end Verif.Irstlm
