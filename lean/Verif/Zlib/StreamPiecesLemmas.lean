import Verif.Zlib.StreamPieces
import Verif.Zlib.PropsPiecesStored
import Verif.Zlib.PropsHeadPieces

/-! Lemmas about a stream in pieces. -/

namespace Verif.Zlib

/-- As if all that is left were one piece. -/
def Fed.read {α : Type} : Fed α → Read α
  | .ok a b ps => .ok a (b.app ps.flatten)
  | .more => .more
  | .bad => .bad

/-- The commands with single bytes in the place of the contents of stored blocks. -/
def single : List Cmd → List Cmd
  | [] => []
  | .raw bs :: cs => bs.map .lit ++ single cs
  | c :: cs => c :: single cs

theorem single_append : ∀ (as bs : List Cmd), single (as ++ bs) = single as ++ single bs
  | [], _ => rfl
  | .raw x :: as, bs => by simp [single, single_append as bs]
  | .lit x :: as, bs => by simp [single, single_append as bs]
  | .copy x y :: as, bs => by simp [single, single_append as bs]

theorem expand_lits : ∀ (bs : List Byte) (out : List Byte) (cs : List Cmd),
    expand out (bs.map .lit ++ cs) = expand (out ++ bs) cs
  | [], out, cs => by simp
  | b :: bs, out, cs => by
    rw [List.map_cons, List.cons_append, expand, expand_lits bs, List.append_assoc]
    rfl

theorem expand_single : ∀ (cs : List Cmd) (out : List Byte), expand out (single cs) = expand out cs
  | [], _ => rfl
  | .raw x :: as, out => by rw [single, expand_lits, expand, expand_single as]
  | .lit x :: as, out => by rw [single, expand, expand, expand_single as]; all_goals simp
  | .copy x y :: as, out => by
    rw [single, expand, expand, expand_single as]
    all_goals simp

theorem bits_app_nil (b : Bits) : b.app [] = b := by simp [Bits.app]

theorem cmdsIn_read (x : Tables) (space : Nat → Nat → Nat) : ∀ (ps : List (List Byte)) (m : LenMode) (b : Bits),
    (cmdsIn x space m b ps).map (fun r => (r.1, r.2.read)) =
      runPieces x space m ⟨b.hold, b.bits, []⟩ (b.next :: ps)
  | [], m, b => by
    rw [cmdsIn, runPieces]
    simp only [List.length_nil]
    cases runMode x (space 0) (2 * (b.bits + 8 * b.next.length) + 2) m b with
    | none => rfl
    | some y =>
      obtain ⟨cs, l⟩ := y
      cases l with
      | bad => rfl
      | ended b' => simp [Fed.read, Bits.app]
      | wait m' b' => simp [Fed.read, runPieces]
  | p :: ps, m, b => by
    rw [cmdsIn, runPieces]
    simp only [List.length_cons]
    cases runMode x (space (ps.length + 1)) (2 * (b.bits + 8 * b.next.length) + 2) m b with
    | none => rfl
    | some y =>
      obtain ⟨cs, l⟩ := y
      cases l with
      | bad => rfl
      | ended b' => simp [Fed.read, Bits.app]
      | wait m' b' =>
        have ih := cmdsIn_read x space ps m' ⟨b'.hold, b'.bits, p⟩
        simp only at ih ⊢
        have e : runPieces x space m' b' (p :: ps) =
          runPieces x space m' ⟨b'.hold, b'.bits, []⟩ (p :: ps) := rfl
        rw [e, ← ih, Option.map_map, Option.map_map]
        rfl

theorem headIn_read : ∀ (ps : List (List Byte)) (m : HeadMode) (b : Bits),
    (headIn m b ps).map Fed.read = headPieces m ⟨b.hold, b.bits, []⟩ (b.next :: ps)
  | [], m, b => by
    rw [headIn, headPieces]
    cases runHead 400 m b with
    | none => rfl
    | some y =>
      cases y with
      | bad => rfl
      | done x b' => simp [Fed.read, Bits.app]
      | wait m' b' => rfl
  | p :: ps, m, b => by
    rw [headIn, headPieces]
    cases runHead 400 m b with
    | none => rfl
    | some y =>
      cases y with
      | bad => rfl
      | done x b' => simp [Fed.read, Bits.app]
      | wait m' b' => exact headIn_read ps m' ⟨b'.hold, b'.bits, p⟩

theorem copyIn_read : ∀ (ps : List (List Byte)) (length : Nat) (next : List Byte),
    ((copyIn length next ps).1, (copyIn length next ps).2.read) = copyPieces length next ps
  | [], length, next => by
    simp only [copyIn, copyPieces]
    split_ifs <;> simp [Fed.read, Bits.app]
  | p :: ps, length, next => by
    have ih := copyIn_read ps
    simp only [copyIn, copyPieces]
    split_ifs
    · simp [Fed.read, Bits.app]
    · rw [← ih]
    · simp [Fed.read, Bits.app]
    · rw [← ih]

theorem storedIn_read : ∀ (ps : List (List Byte)) (b : Bits),
    ((storedIn b ps).1, (storedIn b ps).2.read) = storedPieces ⟨b.hold, b.bits, []⟩ (b.next :: ps)
  | [], b => by
    simp only [storedIn, storedPieces]
    cases need 32 (byteBits b) with
    | none => rfl
    | some b1 =>
      simp only
      split_ifs
      · rfl
      · exact copyIn_read _ _ _
  | p :: ps, b => by
    rw [storedIn, storedPieces]
    cases h : need 32 (byteBits b) with
    | none => exact storedIn_read ps _
    | some b1 =>
      simp only
      split_ifs
      · rfl
      · exact copyIn_read _ _ _

theorem typeIn_read : ∀ (ps : List (List Byte)) (b : Bits),
    (typeIn b ps).map (fun y => y.1.app y.2.flatten) = need 3 (b.app ps.flatten)
  | [], b => by
    rw [typeIn, List.flatten_nil, bits_app_nil]
    cases need 3 b with
    | none => rfl
    | some b1 => simp [bits_app_nil]
  | p :: ps, b => by
    rw [typeIn]
    cases h : need 3 b with
    | none =>
      simp only
      rw [typeIn_read ps]
      exact (need_later (p :: ps).flatten b.next b.hold b.bits h).symm
    | some b1 => exact (need_app (p :: ps).flatten b.next b.hold b.bits b1 h).symm

end Verif.Zlib
