import Verif.Lattice.Model
import Verif.Tags.Spec
import Verif.Utf8.Spec

/-!
Histories of a lattice and what can be observed of it.
-/
namespace Verif.Lattice.Spec
open Verif Verif.Lattice

/-- An edge is in the lattice if it leaves some vertex. -/
def Present (s : State) (e : Edge) : Prop := ∃ v, e ∈ s.allOutEdges v

/-- A call to the lattice (or, `manager`, any calls to its tag manager). -/
inductive Call
  | append (t : Str)
  | loose
  | add (a : Args)
  | addPartition (e : Edge) (tags : Tags.TagSet) (seq : Sequence) (score : Score)
      (ruleId treeChoice : Int)
  | discard (e : Edge)
  | out (v : Vertex) (mask : Tags.Mask)
  | into (v : Vertex) (mask : Tags.Mask)
  | manager (m : Tags.Manager)

/-- `Step s c s'`: the call `c` leads from `s` to `s'`, by returning or by an exception, and has not
run into undefined behaviour.  Tags have to be made by the lattice's tag manager. -/
inductive Step : State → Call → State → Prop
  | append {s t} : Step s (.append t) (appendString s t)
  | loose {s} : Step s .loose (addLooseVertex s).2
  | add {s a r s'} : Tags.Spec.Made s.mgr a.tags → addEdge s a = (r, s') →
      r ≠ .error .undefined → Step s (.add a) s'
  | addPartition {s e t q x i j r s'} : Tags.Spec.Made s.mgr t →
      addPartitionToEdge s e t q x i j = (r, s') → r ≠ .error .undefined →
      Step s (.addPartition e t q x i j) s'
  | discard {s e r s'} : Lattice.discard s e = (r, s') → r ≠ .error .undefined →
      Step s (.discard e) s'
  | out {s v mask} : s.validVertex v = true → Step s (.out v mask) (outEdges s v mask).2
  | into {s v mask} : s.validVertex v = true → Step s (.into v mask) (inEdges s v mask).2
  | manager {s m} : Tags.Spec.Later s.mgr m → Step s (.manager m) { s with mgr := m }

/-- `Run P s s'`: a history of calls, all of which satisfy `P` when they are made. -/
inductive Run (P : State → Call → Prop) : State → State → Prop
  | refl {s} : Run P s s
  | step {s s1 s2 c} : Run P s s1 → P s1 c → Step s1 c s2 → Run P s s2

/-- Any history. -/
abbrev Steps : State → State → Prop := Run (fun _ _ => True)

/-- The lattices that can come about. -/
def Reachable (s : State) : Prop := Steps initial s

/-- `a` is one of the largest elements of `l`. -/
def Largest (a : Score) (l : List Score) : Prop := a ∈ l ∧ ∀ b ∈ l, b ≤ a

/-- A set of tags contains another. -/
def SubTags (a b : Tags.TagSet) : Prop := ∀ i, a.getLsbD i = true → b.getLsbD i = true

/-- The edge is an ordinary edge of the graph (not an implicit symbol edge). -/
def Explicit : Edge → Prop
  | .expl _ => True
  | .impl _ => False

/-- The two vertices are text positions at the two ends of one symbol (as `symbolLength` measures
it). -/
def SymbolSpan (s : State) (u v : Vertex) : Prop := 0 ≤ u ∧ u < s.text.length ∧ v = u + s.symLen u.toNat

/-- `v` is a text position between two characters of a well-formed text, or a loose vertex. -/
def Boundary (s : State) (v : Vertex) : Prop :=
  v < 0 ∨ Utf8.Spec.WellFormed (s.text.take v.toNat)

/-- The number of edges from `u` to `v`. -/
def edgesBetween (s : State) (u v : Vertex) : Nat :=
  ((s.allOutEdges u).filter (fun e => decide (s.tgt e = v))).length

/-- The edges form a chain from `u` to `v`. -/
def Chain (s : State) : Vertex → List Edge → Vertex → Prop
  | u, [], v => u = v
  | u, e :: es, v => s.src e = u ∧ Chain s (s.tgt e) es v

/-- `Annotates s c a`: the call `c` amounts to `addEdge` with the arguments `a`. -/
inductive Annotates (s : State) : Call → Args → Prop
  | add {a} : Annotates s (.add a) a
  | addPartition {e t q x i j item} : s.item e = .ok item →
      Annotates s (.addPartition e t q x i j) ⟨s.src e, s.tgt e, item,
        Tags.createUnion t (Tags.onlyPlaneTags s.mgr (s.tags e)), q, x, i, j⟩
  | discard {e item} : s.item e = .ok item →
      Annotates s (.discard e) ⟨s.src e, s.tgt e, item,
        Tags.createUnion discardedTag (Tags.onlyPlaneTags s.mgr (s.tags e)), Sequence.empty,
        lowestScore, -1, -1⟩

/-- The call does not annotate `key` with just the tag "symbol" (as `addSymbols` does). -/
def NeverSymbol (key : Key) (s : State) (c : Call) : Prop :=
  ∀ a, Annotates s c a → a.src = key.src → a.tgt = key.tgt → a.item = key.item → a.tags ≠ symbolTag

/-- The annotation is not one of a single symbol: its ends are not those of a symbol, or it has
never been added with just the tag "symbol". -/
def Ordinary (s : State) (key : Key) : Prop :=
  ¬ SymbolSpan s key.src key.tgt ∨ Run (NeverSymbol key) initial s

/-- The two collections of tags contain the same plane tags. -/
def SamePlane (s : State) (a b : Tags.TagSet) : Prop :=
  ∀ n, Tags.Spec.PlaneName n → (Tags.Spec.Has s.mgr a n ↔ Tags.Spec.Has s.mgr b n)

/-- `n` is a plane tag of the annotation to be added: one of its own, or (if it has none) one of the
edges of its sequence. -/
def NewPlane (s : State) (a : Args) (n : Str) : Prop :=
  Tags.Spec.Has s.mgr a.tags n ∨
    ((∀ p, Tags.Spec.PlaneName p → ¬ Tags.Spec.Has s.mgr a.tags p) ∧
      ∃ u ∈ a.seq.links, Tags.Spec.Has s.mgr (s.tags u.edge) n)

/-- A mask that the interface can make. -/
inductive ProperMask : Tags.Mask → Prop
  | alts (alts) : ProperMask (Tags.Mask.ofAlts alts)
  | flag (b) : ProperMask (Tags.Mask.ofBool b)
  | isNone {m} : ProperMask m → ProperMask m.isNone.2

/-- The call is not a query with (a mask equal to) this mask. -/
def NotQueried (mask : Tags.Mask) (s : State) : Call → Prop
  | .out _ m => m.eq mask = false
  | .into _ m => m.eq mask = false
  | _ => True

/-- The call does not make an edge match the mask that has not matched it before. -/
def NoNewMatch (mask : Tags.Mask) (s : State) (c : Call) : Prop :=
  ∀ s', Step s c s' → ∀ e, Present s e → Explicit e →
    Tags.matches (s'.tags e) mask = true → Tags.matches (s.tags e) mask = true

/-- Appending several texts with symbols, one after another, up to the first exception. -/
def appendAll (s : State) : List Str → Except Exn Unit × State
  | [] => (.ok (), s)
  | t :: ts => match appendStringWithSymbols s t with
    | (.ok _, s1) => appendAll s1 ts
    | (.error e, s1) => (.error e, s1)

/-- Everything that can be observed is the same in both lattices. -/
structure SameView (s s' : State) : Prop where
  text : s'.text = s.text
  outs : ∀ v, s'.allOutEdges v = s.allOutEdges v
  ins : ∀ v, s'.allInEdges v = s.allInEdges v
  maskOuts : ∀ v mask, (outEdges s' v mask).1 = (outEdges s v mask).1
  maskIns : ∀ v mask, (inEdges s' v mask).1 = (inEdges s v mask).1
  src : ∀ e, s'.src e = s.src e
  tgt : ∀ e, s'.tgt e = s.tgt e
  item : ∀ e, s'.item e = s.item e
  tags : ∀ e, s'.tags e = s.tags e
  score : ∀ e, s'.score e = s.score e
  parts : ∀ e, s'.parts e = s.parts e
  hidden : ∀ e, s'.isHidden e = s.isHidden e
  count : ∀ u v, s'.countEdges u v = s.countEdges u v
  last : s'.getLastVertex = s.getLastVertex

end Verif.Lattice.Spec
