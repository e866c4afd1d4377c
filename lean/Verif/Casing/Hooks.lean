import Verif.Basic

/-!
Model of `LemmatizerAnnotator::Worker::WorkerOutputIterator`,
/repo/common/lemmatizer_annotator.hpp 107-257: which edge the annotations of a lemmatizer are put
on. The lattice is any structure with an operation that adds an edge over another one.
-/
namespace Verif.Casing.Hooks

/-- The five kinds of annotations: `doAddCorrection`, `doAddNormalization`, `doAddLemma`,
`doAddLexeme` and `doAddForm`. -/
inductive Level
  | correction
  | normalization
  | lemma
  | lexeme
  | form
  deriving DecidableEq, Repr

/-- `lastCorrection_`, `lastNormalization_`, `lastLemma_` and `lastLexeme_`,
lemmatizer_annotator.hpp 116-119. -/
structure Last (E : Type) where
  correction : E
  normalization : E
  lemma : E
  lexeme : Option E

/-- The constructor, lemmatizer_annotator.hpp 122-152: it says nothing of `lastLexeme_`, which
is left without a value (`none`). -/
def Last.start {E : Type} (token : E) : Last E := ⟨token, token, token, none⟩

/-- The edge under the new one: `seqBuilder.addEdge(…)` in lemmatizer_annotator.hpp 161, 184, 205,
225 and 244; its ends are those of the new edge. -/
def Last.under {E : Type} (l : Last E) (token : E) : Level → Option E
  | .correction => some token
  | .normalization => some l.correction
  | .lemma => some l.normalization
  | .lexeme => some l.lemma
  | .form => l.lexeme

/-- The assignments in lemmatizer_annotator.hpp 165, 188, 209 and 228. -/
def Last.after {E : Type} (l : Last E) (e : E) : Level → Last E
  | .correction => ⟨e, e, e, some e⟩
  | .normalization => { l with normalization := e, lemma := e, lexeme := some e }
  | .lemma => { l with lemma := e, lexeme := some e }
  | .lexeme => { l with lexeme := some e }
  | .form => l

/-- An annotation as it came out: its kind, the edge it was put on, and its own edge. -/
structure Made (E : Type) where
  level : Level
  under : E
  edge : E
  deriving DecidableEq, Repr

/-- A run of the output iterator on the annotations of the lemmatizer. `add` is
`lattice_.addEdge` with an annotation `a` over an edge; `none` is the use of `lastLexeme_`
without a value. -/
def run {σ E α : Type} (add : σ → Level → α → E → σ × E) (token : E) :
    σ → Last E → List (Level × α) → Option (σ × List (Made E))
  | s, _, [] => some (s, [])
  | s, l, (v, a) :: rest =>
    match l.under token v with
    | none => none
    | some u =>
      let (s', e) := add s v a u
      (run add token s' (l.after e v) rest).map fun r => (r.1, ⟨v, u, e⟩ :: r.2)

end Verif.Casing.Hooks
