import Verif.Zlib.PiecesLemmas

/-! Lemmas about input in pieces: the modes and the calls. -/

namespace Verif.Zlib

/-! ### What remains to be said in each mode -/

def RemDistext (ll dl : List Nat) (length base extra s t : Nat) (cs : List Cmd) (r : Outcome Unit) :
    Prop :=
  (Number extra s t .more ∧ cs = [] ∧ r = .more) ∨
    ∃ n s1 t1 cs', Number extra s t (.got n s1 t1) ∧ cs = .copy length (base + n) :: cs' ∧
      Commands ll dl s1 t1 cs' r

def RemDist (ll dl : List Nat) (length s t : Nat) (cs : List Cmd) (r : Outcome Unit) : Prop :=
  (Code .dists dl s t .more ∧ cs = [] ∧ r = .more) ∨ (Code .dists dl s t .bad ∧ cs = [] ∧ r = .bad) ∨
    ∃ base extra s1 t1, Code .dists dl s t (.got (.copy base extra) s1 t1) ∧
      RemDistext ll dl length base extra s1 t1 cs r

def RemLenext (ll dl : List Nat) (base extra s t : Nat) (cs : List Cmd) (r : Outcome Unit) : Prop :=
  (Number extra s t .more ∧ cs = [] ∧ r = .more) ∨
    ∃ n s1 t1, Number extra s t (.got n s1 t1) ∧ RemDist ll dl (base + n) s1 t1 cs r

def Rem (ll dl : List Nat) (m : LenMode) (s t : Nat) (cs : List Cmd) (r : Outcome Unit) : Prop :=
  match m with
  | .len => Commands ll dl s t cs r
  | .lenext base extra => RemLenext ll dl base extra s t cs r
  | .dist length => RemDist ll dl length s t cs r
  | .distext length base extra => RemDistext ll dl length base extra s t cs r

theorem rem_len {ll dl : List Nat} {base extra s t s1 t1 : Nat} {cs : List Cmd} {r : Outcome Unit}
    (h : Code .lens ll s t (.got (.copy base extra) s1 t1))
    (hr : RemLenext ll dl base extra s1 t1 cs r) : Commands ll dl s t cs r := by
  rcases hr with ⟨h1, rfl, rfl⟩ | ⟨n, s2, t2, h1, hr⟩
  · exact .cut (.cutLength h h1)
  · rcases hr with ⟨h2, rfl, rfl⟩ | ⟨h2, rfl, rfl⟩ | ⟨base', extra', s3, t3, h2, hr⟩
    · exact .cut (.cutDist h h1 h2)
    · exact .wrong (.wrongDist h h1 h2)
    · rcases hr with ⟨h3, rfl, rfl⟩ | ⟨n', s4, t4, cs', h3, rfl, h4⟩
      · exact .cut (.cutExtra h h1 h2 h3)
      · exact .next (.copy h h1 h2 h3) h4

/-! ### The bit buffer between calls -/

/-- A code is to be read: there is less than a byte, or the bits there are do not suffice. -/
def Short (lens : List Nat) (b : Bits) : Prop :=
  ∀ z sym, BeginsWith lens (b.hold + 2 ^ b.bits * z) sym → b.bits < lens.getD sym 0 + 8

def Ready (ll dl : List Nat) (m : LenMode) (b : Bits) : Prop :=
  b.hold < 2 ^ b.bits ∧
    match m with
    | .len => Short ll b
    | .lenext _ extra => b.bits < extra + 8
    | .dist _ => Short dl b
    | .distext _ _ extra => b.bits < extra + 8

theorem ready_small {ll dl : List Nat} {b : Bits} (hb : b.hold < 2 ^ b.bits) (h8 : b.bits < 8)
    (m : LenMode) : Ready ll dl m b := by
  refine ⟨hb, ?_⟩
  cases m with
  | len => intro z sym _; omega
  | lenext _ _ => simp only; omega
  | dist _ => intro z sym _; omega
  | distext _ _ _ => simp only; omega

theorem pullAll_eq : ∀ (next : List Byte) (hold bits : Nat),
    pullAll hold bits next = ⟨(⟨hold, bits, next⟩ : Bits).stream, (⟨hold, bits, next⟩ : Bits).total, []⟩
  | [], hold, bits => by simp [pullAll, Bits.stream, Bits.total, streamOf]
  | x :: xs, hold, bits => by
    rw [pullAll, pullAll_eq xs]
    simp only [Bits.stream, Bits.total, streamOf, List.length_cons, Bits.mk.injEq, and_true]
    constructor
    · rw [Nat.pow_add, Nat.mul_add]
      have e1 : x.toNat * 2 ^ bits = 2 ^ bits * x.toNat := Nat.mul_comm _ _
      have e2 : 2 ^ bits * 2 ^ 8 * streamOf xs = 2 ^ bits * (256 * streamOf xs) := by
        rw [Nat.mul_assoc]
        rfl
      rw [e1, e2, Nat.add_assoc]
    · omega

theorem stream_lt {b : Bits} (hb : b.hold < 2 ^ b.bits) : b.stream < 2 ^ b.total := by
  have key : ∀ bs : List Byte, streamOf bs < 2 ^ (8 * bs.length) := by
    intro bs
    induction bs with
    | nil => simp [streamOf]
    | cons x xs ih =>
      have := x.toNat_lt
      rw [streamOf, List.length_cons, show 8 * (xs.length + 1) = 8 * xs.length + 8 by omega,
        Nat.pow_add]
      omega
  have h2 := key b.next
  unfold Bits.stream Bits.total
  rw [Nat.pow_add]
  calc b.hold + 2 ^ b.bits * streamOf b.next < 2 ^ b.bits + 2 ^ b.bits * streamOf b.next := by omega
    _ = 2 ^ b.bits * (streamOf b.next + 1) := by rw [Nat.mul_add, Nat.mul_one, Nat.add_comm]
    _ ≤ _ := Nat.mul_le_mul_left _ h2

theorem short_more {type : CodeType} {lens : List Nat} {s t : Nat}
    (h : Code type lens s t .more) : Short lens ⟨s, t, []⟩ := by
  intro z sym hs
  simp only at hs ⊢
  cases h with
  | @cut sym' h1 h2 =>
    by_contra hge
    have hle : lens.getD sym 0 ≤ t := by omega
    have := begins_unique h1 (begins_congr hs (Nat.le_refl _) (more_mod hle))
    subst this
    omega
  | empty h1 h2 => omega

/-! ### One call -/

/-- What a call does is said by the input, whatever follows. -/
def CallGood (ll dl : List Nat) (m : LenMode) (b : Bits) (cs : List Cmd) : Stop → Prop
  | .bad => ∀ z k, Rem ll dl m (b.stream + 2 ^ b.total * z) (b.total + k) cs .bad
  | .ended b' => b'.Ok ∧ ∀ z k, Rem ll dl m (b.stream + 2 ^ b.total * z) (b.total + k) cs
      (.got () (b'.stream + 2 ^ b'.total * z) (b'.total + k))
  | .wait m' b' => b'.next = [] ∧ Ready ll dl m' b' ∧ Rem ll dl m' b'.stream b'.total [] .more ∧
      ∀ z k cs2 r, Rem ll dl m' (b'.stream + 2 ^ b'.total * z) (b'.total + k) cs2 r →
        Rem ll dl m (b.stream + 2 ^ b.total * z) (b.total + k) (cs ++ cs2) r

theorem CallGood.after {ll dl : List Nat} {m m1 : LenMode} {b b1 : Bits} {pre cs : List Cmd} {l : Stop}
    (h : CallGood ll dl m1 b1 cs l)
    (hp : ∀ z k cs r, Rem ll dl m1 (b1.stream + 2 ^ b1.total * z) (b1.total + k) cs r →
      Rem ll dl m (b.stream + 2 ^ b.total * z) (b.total + k) (pre ++ cs) r) :
    CallGood ll dl m b (pre ++ cs) l := by
  cases l with
  | bad => exact fun z k => hp z k _ _ (h z k)
  | ended b' => exact ⟨h.1, fun z k => hp z k _ _ (h.2 z k)⟩
  | wait m' b' =>
    refine ⟨h.1, h.2.1, h.2.2.1, fun z k cs2 r hr => ?_⟩
    rw [List.append_assoc]
    exact hp z k _ _ (h.2.2.2 z k cs2 r hr)

/-- The call is left in the mode in which it is. -/
theorem good_wait {ll dl : List Nat} {m : LenMode} {b : Bits} (hb : b.hold < 2 ^ b.bits)
    (hr : Rem ll dl m b.stream b.total [] .more)
    (hs : Ready ll dl m ⟨b.stream, b.total, []⟩) :
    CallGood ll dl m b [] (.wait m (pullAll b.hold b.bits b.next)) := by
  rw [pullAll_eq]
  have e1 : (⟨b.stream, b.total, []⟩ : Bits).stream = b.stream := stream_now _ _
  have e2 : (⟨b.stream, b.total, []⟩ : Bits).total = b.total := total_now _ _
  refine ⟨rfl, hs, ?_, fun z k cs2 r h => ?_⟩
  · show Rem ll dl m (⟨b.stream, b.total, []⟩ : Bits).stream (⟨b.stream, b.total, []⟩ : Bits).total [] .more
    rw [e1, e2]
    exact hr
  · replace h : Rem ll dl m ((⟨b.stream, b.total, []⟩ : Bits).stream +
      2 ^ (⟨b.stream, b.total, []⟩ : Bits).total * z) ((⟨b.stream, b.total, []⟩ : Bits).total + k) cs2 r := h
    rw [e1, e2] at h
    exact h

/-- A code in a mode. -/
theorem PReads.step {type : CodeType} {lens : List Nat} {t : Table} {root : Nat}
    (hx : PReads type lens t root) {b : Bits} (hb : b.hold < 2 ^ b.bits) (hs : Short lens b) :
    (takeCode type t root b = Option.none ∧ Code type lens b.stream b.total .more) ∨
    (∃ e b', takeCode type t root b = some (e, b') ∧ interpret type e = .invalid ∧
      Code type lens b.stream b.total .bad) ∨
    ∃ e b', takeCode type t root b = some (e, b') ∧ b'.Ok ∧ b'.total < b.total ∧
      Code type lens b.stream b.total (.got (interpret type e) b'.stream b'.total) := by
  obtain ⟨r, h⟩ := code_exists type lens b.stream b.total
  cases h with
  | @got sym h1 h2 h3 =>
    obtain ⟨e, b', g1, g2, g3, g4, g5, g6⟩ := hx.got hb h1 h2
    refine .inr (.inr ⟨e, b', g1, ⟨g5, g6 (hs _ sym h1)⟩, ?_, ?_⟩)
    · have := h1.2.1
      omega
    · rw [g2, g3, g4]
      exact .got h1 h2 h3
  | @invalid sym h1 h2 h3 =>
    obtain ⟨e, b', g1, g2, _⟩ := hx.got hb h1 h2
    exact .inr (.inl ⟨e, b', g1, by rw [g2, h3], .invalid h1 h2 h3⟩)
  | none h1 h2 =>
    obtain ⟨e, b', g1, g2⟩ := hx.none hb h1 h2
    exact .inr (.inl ⟨e, b', g1, g2, .none h1 h2⟩)
  | cut h1 h2 => exact .inl ⟨hx.more hb (.cut h1 h2), .cut h1 h2⟩
  | empty h1 h2 => exact .inl ⟨hx.more hb (.empty h1 h2), .empty h1 h2⟩

/-- A number in a mode. -/
theorem number_step {b : Bits} (hb : b.hold < 2 ^ b.bits) {n : Nat} (hs : b.bits < n + 8) :
    (need n b = none ∧ Number n b.stream b.total .more ∧ b.total < n) ∨
    ∃ b', need n b = some b' ∧ (dropBits b' n).Ok ∧ (dropBits b' n).total ≤ b.total ∧
      Number n b.stream b.total (.got (lowBits b' n) (dropBits b' n).stream (dropBits b' n).total) := by
  by_cases h : n ≤ b.total
  · obtain ⟨b', n1, n2, n3, n4⟩ := need_some hb h
    obtain ⟨d1, d2, d3, d4, d5⟩ := bits_drop n2.hold n3
    refine .inr ⟨b', n1, ⟨d4, by omega⟩, by rw [d3, n2.total]; omega, ?_⟩
    rw [d1, d2, d3, n2.stream, n2.total]
    exact .got h
  · exact .inl ⟨need_none hb (by omega), .more (by omega), by omega⟩

/-- How far a mode is from the next command. -/
def LenMode.weight : LenMode → Nat
  | .len => 0
  | .lenext _ _ => 1
  | .dist _ => 0
  | .distext _ _ _ => 1

theorem runMode_spec {ll dl : List Nat} {x : Tables}
    (hx : FastReads .lens ll x.lencode x.lenbits) (hy : FastReads .dists dl x.distcode x.distbits)
    (px : PReads .lens ll x.lencode x.lenbits) (py : PReads .dists dl x.distcode x.distbits)
    (space : Nat → Nat) :
    ∀ (fuel : Nat) (m : LenMode) (b : Bits), Ready ll dl m b → 2 * b.total + m.weight < fuel →
      ∃ cs l, runMode x space fuel m b = some (cs, l) ∧ CallGood ll dl m b cs l
  | 0, _, _, _, hf => by omega
  | fuel + 1, m, b, hr, hf => by
    have hb := hr.1
    rw [runMode.eq_2]
    by_cases hgo : m = .len ∧ 6 ≤ b.next.length ∧ 258 ≤ space fuel
    · obtain ⟨rfl, h6, h258⟩ := hgo
      rw [if_pos ⟨rfl, h6, h258⟩]
      obtain ⟨cs, l, i1, i2, i3⟩ := fastLoop_any hx hy px py (b.bits + 8 * b.next.length + 1)
        (space fuel) b hb h6 h258 (by unfold Bits.total; omega)
      replace i3 := i3 (fun sym hs => hr.2 _ sym hs)
      cases l with
      | ended b' =>
        obtain ⟨j1, j2, j3⟩ := i2
        obtain ⟨k1, k2, k3⟩ := giveBack_any hb j1 j2 i3
        refine ⟨cs, .ended (giveBack b.next b'), ?_, k1, ?_⟩
        · simp only [inflateFast, i1, Option.map_some]
        · rw [k2, k3]
          exact j3
      | wrong =>
        refine ⟨cs, .bad, ?_, i2⟩
        simp only [inflateFast, i1, Option.map_some]
      | paused b' =>
        obtain ⟨j1, j2, j3, j4⟩ := i2
        obtain ⟨k1, k2, k3⟩ := giveBack_any hb j1 j2 i3
        obtain ⟨cs2, l, y1, y2⟩ := runMode_spec hx hy px py space fuel .len (giveBack b.next b')
          (ready_small k1.hold k1.bits _) (by simp only [LenMode.weight] at hf ⊢; omega)
        refine ⟨cs ++ cs2, l, ?_, ?_⟩
        · simp only [inflateFast, i1, Option.map_some, y1]
        · refine y2.after (fun z k cs r h => j4 z k cs r ?_)
          rw [k2, k3] at h
          exact h
    · rw [if_neg hgo]
      cases m with
      | len =>
        rcases px.step hb hr.2 with ⟨g1, g2⟩ | ⟨e, b', g1, g2, g3⟩ | ⟨e, b', g1, g2, g3, g4⟩
        · refine ⟨[], .wait .len (pullAll b.hold b.bits b.next), by simp only [modeStep, g1], ?_⟩
          exact good_wait hb (m := .len) (Commands.cut (Command.cut g2)) ⟨stream_lt hb, short_more g2⟩
        · refine ⟨[], .bad, by simp only [modeStep, g1, g2], fun z k => ?_⟩
          exact Commands.wrong (.wrong (code_mono px z k g3))
        · have gm := fun z k => code_mono px z k g4
          simp only at gm
          cases hi : interpret .lens e with
          | number n =>
            rw [hi] at gm
            obtain ⟨cs2, l, y1, y2⟩ := runMode_spec hx hy px py space fuel .len b'
              (ready_small g2.hold g2.bits _) (by simp only [LenMode.weight] at hf ⊢; omega)
            refine ⟨.lit (UInt8.ofNat n) :: cs2, l, by simp only [modeStep, g1, hi, y1, Option.map_some], ?_⟩
            exact y2.after (pre := [.lit (UInt8.ofNat n)]) (fun z k cs r h => Commands.next (.lit (gm z k)) h)
          | endOfBlock =>
            rw [hi] at gm
            refine ⟨[], .ended b', by simp only [modeStep, g1, hi], g2, fun z k => ?_⟩
            exact Commands.stop (.stop (gm z k))
          | invalid =>
            rw [hi] at g4
            obtain ⟨_, _, hne⟩ := code_meaning g4 _ _ _ rfl
            exact absurd rfl hne
          | copy base extra =>
            rw [hi] at gm
            obtain ⟨cs2, l, y1, y2⟩ := runMode_spec hx hy px py space fuel (.lenext base extra) b'
              (ready_small g2.hold g2.bits _) (by simp only [LenMode.weight] at hf ⊢; omega)
            refine ⟨cs2, l, by simp only [modeStep, g1, hi, y1], ?_⟩
            exact y2.after (pre := []) (fun z k cs r h => rem_len (gm z k) h)
      | lenext base extra =>
        rcases number_step hb hr.2 with ⟨g1, g2, g3⟩ | ⟨b', g1, g2, g3, g4⟩
        · refine ⟨[], .wait (.lenext base extra) (pullAll b.hold b.bits b.next),
            by simp only [modeStep, g1], ?_⟩
          exact good_wait hb (Or.inl ⟨g2, rfl, rfl⟩)
            ⟨stream_lt hb, by show b.total < extra + 8; omega⟩
        · obtain ⟨cs2, l, y1, y2⟩ := runMode_spec hx hy px py space fuel
            (.dist (base + lowBits b' extra)) (dropBits b' extra)
            (ready_small g2.hold g2.bits _) (by simp only [LenMode.weight] at hf ⊢; omega)
          refine ⟨cs2, l, by simp only [modeStep, g1, y1], ?_⟩
          exact y2.after (pre := []) (fun z k cs r h => Or.inr ⟨_, _, _, number_mono z k g4, h⟩)
      | dist length =>
        rcases py.step hb hr.2 with ⟨g1, g2⟩ | ⟨e, b', g1, g2, g3⟩ | ⟨e, b', g1, g2, g3, g4⟩
        · refine ⟨[], .wait (.dist length) (pullAll b.hold b.bits b.next),
            by simp only [modeStep, g1], ?_⟩
          exact good_wait hb (Or.inl ⟨g2, rfl, rfl⟩) ⟨stream_lt hb, short_more g2⟩
        · refine ⟨[], .bad, by simp only [modeStep, g1, g2], fun z k => ?_⟩
          exact Or.inr (.inl ⟨code_mono py z k g3, rfl, rfl⟩)
        · have hm : ∃ base extra, interpret .dists e = .copy base extra := by
            obtain ⟨sym, e', hm⟩ := code_meaning g4 _ _ _ rfl
            simp only [meaning] at e'
            split at e'
            · exact ⟨_, _, e'.symm⟩
            · exact absurd e'.symm hm
          obtain ⟨base, extra, hi⟩ := hm
          have gm := fun z k => code_mono py z k g4
          simp only at gm
          rw [hi] at gm
          obtain ⟨cs2, l, y1, y2⟩ := runMode_spec hx hy px py space fuel
            (.distext length base extra) b'
            (ready_small g2.hold g2.bits _) (by simp only [LenMode.weight] at hf ⊢; omega)
          refine ⟨cs2, l, by simp only [modeStep, g1, hi, y1], ?_⟩
          exact y2.after (pre := []) (fun z k cs r h => Or.inr (.inr ⟨_, _, _, _, gm z k, h⟩))
      | distext length base extra =>
        rcases number_step hb hr.2 with ⟨g1, g2, g3⟩ | ⟨b', g1, g2, g3, g4⟩
        · refine ⟨[], .wait (.distext length base extra) (pullAll b.hold b.bits b.next),
            by simp only [modeStep, g1], ?_⟩
          exact good_wait hb (Or.inl ⟨g2, rfl, rfl⟩)
            ⟨stream_lt hb, by show b.total < extra + 8; omega⟩
        · obtain ⟨cs2, l, y1, y2⟩ := runMode_spec hx hy px py space fuel .len (dropBits b' extra)
            (ready_small g2.hold g2.bits _) (by simp only [LenMode.weight] at hf ⊢; omega)
          refine ⟨.copy length (base + lowBits b' extra) :: cs2, l,
            by simp only [modeStep, g1, y1, Option.map_some], ?_⟩
          exact y2.after (pre := [.copy length (base + lowBits b' extra)])
            (fun z k cs r h => Or.inr ⟨_, _, _, _, number_mono z k g4, rfl, h⟩)

/-! ### All calls -/

theorem streamOf_append : ∀ (as bs : List Byte),
    streamOf (as ++ bs) = streamOf as + 2 ^ (8 * as.length) * streamOf bs
  | [], bs => by simp [streamOf]
  | x :: xs, bs => by
    rw [List.cons_append, streamOf, streamOf, streamOf_append xs bs, List.length_cons,
      show 8 * (xs.length + 1) = 8 * xs.length + 8 by omega, Nat.pow_add, Nat.mul_add]
    have : 2 ^ (8 * xs.length) * 2 ^ 8 * streamOf bs = 256 * (2 ^ (8 * xs.length) * streamOf bs) := by
      rw [Nat.mul_comm (2 ^ (8 * xs.length)) (2 ^ 8), Nat.mul_assoc]
      rfl
    rw [this, Nat.add_assoc]

theorem stream_append (h n : Nat) (as bs : List Byte) :
    (⟨h, n, as ++ bs⟩ : Bits).stream =
      (⟨h, n, as⟩ : Bits).stream + 2 ^ (⟨h, n, as⟩ : Bits).total * streamOf bs := by
  simp only [Bits.stream, Bits.total]
  rw [streamOf_append, Nat.mul_add, Nat.pow_add, Nat.mul_assoc, Nat.add_assoc]

theorem total_append (h n : Nat) (as bs : List Byte) :
    (⟨h, n, as ++ bs⟩ : Bits).total = (⟨h, n, as⟩ : Bits).total + 8 * bs.length := by
  simp only [Bits.total, List.length_append]
  omega

theorem runPieces_spec {ll dl : List Nat} {x : Tables}
    (hx : FastReads .lens ll x.lencode x.lenbits) (hy : FastReads .dists dl x.distcode x.distbits)
    (px : PReads .lens ll x.lencode x.lenbits) (py : PReads .dists dl x.distcode x.distbits)
    (space : Nat → Nat → Nat) :
    ∀ (pieces : List (List Byte)) (m : LenMode) (b : Bits), Ready ll dl m b → b.next = [] →
      (pieces = [] → Rem ll dl m b.stream b.total [] .more) →
      ∃ y cs r, runPieces x space m b pieces = some y ∧
        Rem ll dl m (⟨b.hold, b.bits, pieces.flatten⟩ : Bits).stream
          (⟨b.hold, b.bits, pieces.flatten⟩ : Bits).total cs r ∧ Does cs r y
  | [], m, b, hr, hn, h0 => by
    refine ⟨([], .more), [], .more, rfl, ?_, rfl, rfl⟩
    obtain ⟨hold, bits, next⟩ := b
    simp only at hn
    subst hn
    exact h0 rfl
  | p :: ps, m, b, hr, hn, _ => by
    have hr' : Ready ll dl m ⟨b.hold, b.bits, p⟩ := hr
    have hw : m.weight ≤ 1 := by cases m <;> simp [LenMode.weight]
    obtain ⟨cs, l, g1, g2⟩ := runMode_spec hx hy px py (space ps.length)
      (2 * (b.bits + 8 * p.length) + 2) m ⟨b.hold, b.bits, p⟩ hr' (by
        simp only [Bits.total]; omega)
    rw [List.flatten_cons, stream_append, total_append, runPieces, g1]
    cases l with
    | bad => exact ⟨(cs, .bad), cs, .bad, rfl, g2 _ _, rfl, rfl⟩
    | ended b' =>
      obtain ⟨i1, i2⟩ := g2
      refine ⟨(cs, .ok () ⟨b'.hold, b'.bits, b'.next ++ ps.flatten⟩), cs, _, rfl, i2 _ _, rfl, (), _, rfl,
        rfl, ⟨i1.hold, i1.bits⟩, ?_, ?_⟩
      · rw [stream_append]
      · rw [total_append]
    | wait m' b' =>
      obtain ⟨i1, i2, i3, i4⟩ := g2
      obtain ⟨y, cs2, r, j1, j2, j3, j4⟩ :=
        runPieces_spec hx hy px py space ps m' b' i2 i1 (fun _ => i3)
      refine ⟨(cs ++ y.1, y.2), cs ++ cs2, r, by simp only [j1, Option.map_some], ?_, by rw [j3], j4⟩
      apply i4
      obtain ⟨hold, bits, next⟩ := b'
      simp only at i1
      subst i1
      rw [← List.nil_append ps.flatten, stream_append, total_append] at j2
      exact j2

end Verif.Zlib
