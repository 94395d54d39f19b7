/-
Reading what was written.
-/
import Verif.Spec.Wire
import Verif.Lemmas.Integrity
namespace Zdb.Wire

/-- No end of line. -/
def Plain (b : Bytes) : Prop := ∀ x ∈ b, x ≠ 13 ∧ x ≠ 10

instance (b : Bytes) : Decidable (Plain b) := inferInstanceAs (Decidable (∀ x ∈ b, x ≠ 13 ∧ x ≠ 10))

theorem readLine_append {l : Bytes} (h : Plain l) (s : Bytes) : readLine (l ++ 13 :: 10 :: s) = some (l, s) := by
  induction l with
  | nil => simp [readLine]
  | cons a l ih =>
    have h1 : a ≠ 13 := (h a (List.mem_cons_self ..)).1
    have h2 := ih (fun x hx => h x (List.mem_cons_of_mem _ hx))
    cases l with
    | nil =>
      rw [List.cons_append, List.nil_append, readLine, if_neg (fun hh => h1 hh.1)]
      rw [List.nil_append] at h2
      rw [h2]
    | cons b l =>
      rw [List.cons_append, List.cons_append, readLine, if_neg (fun hh => h1 hh.1)]
      rw [List.cons_append] at h2
      rw [h2]

theorem digit_toNat {k : Nat} (h : k < 10) : 48 ≤ UInt8.ofNat (48 + k) ∧ UInt8.ofNat (48 + k) ≤ 57 ∧
    (UInt8.ofNat (48 + k)).toNat - 48 = k := by
  have : ∀ k, k < 10 → 48 ≤ UInt8.ofNat (48 + k) ∧ UInt8.ofNat (48 + k) ≤ 57 ∧ (UInt8.ofNat (48 + k)).toNat - 48 = k := by decide
  exact this k h

theorem readNat_append (a b : Bytes) (acc : Nat) (h : ∀ x ∈ a, 48 ≤ x ∧ x ≤ 57) :
    readNat acc (a ++ b) = readNat (a.foldl (fun acc d => acc * 10 + (d.toNat - 48)) acc) b := by
  induction a generalizing acc with
  | nil => rfl
  | cons d a ih =>
    rw [List.cons_append, readNat, if_pos (h d (List.mem_cons_self ..)), ih _ (fun x hx => h x (List.mem_cons_of_mem _ hx))]
    rfl

theorem decBytes_eq (n : Nat) : decBytes n = Resp.digits n := decimal_eq n

theorem digits_range (n : Nat) : ∀ x ∈ Resp.digits n, 48 ≤ x ∧ x ≤ 57 := by
  induction n using Nat.strongRecOn with
  | ind n ih =>
    rw [Resp.digits]
    split
    · rename_i h
      intro x hx
      rw [List.mem_singleton] at hx
      subst hx
      exact ⟨(digit_toNat h).1, (digit_toNat h).2.1⟩
    · rename_i h
      intro x hx
      rcases List.mem_append.1 hx with hx | hx
      · exact ih _ (by omega) x hx
      · rw [List.mem_singleton] at hx
        subst hx
        have := digit_toNat (Nat.mod_lt n (show 0 < 10 by decide))
        exact ⟨this.1, this.2.1⟩

theorem digits_fold (n : Nat) : (Resp.digits n).foldl (fun acc d => acc * 10 + (d.toNat - 48)) 0 = n := by
  induction n using Nat.strongRecOn with
  | ind n ih =>
    rw [Resp.digits]
    split
    · rename_i h
      rw [List.foldl_cons, List.foldl_nil, (digit_toNat h).2.2]
      omega
    · rename_i h
      rw [List.foldl_append, ih _ (by omega), List.foldl_cons, List.foldl_nil, (digit_toNat (Nat.mod_lt n (by decide))).2.2]
      omega

theorem readNat_digits (n : Nat) : readNat 0 (Resp.digits n) = some n := by
  have := readNat_append (Resp.digits n) [] 0 (digits_range n)
  rw [List.append_nil, digits_fold] at this
  rw [this, readNat]

theorem digits_cons (n : Nat) : ∃ d ds, Resp.digits n = d :: ds ∧ d ≠ 45 := by
  cases h : Resp.digits n with
  | nil =>
    rw [Resp.digits] at h
    split at h
    · cases h
    · simp at h
  | cons d ds =>
    refine ⟨d, ds, rfl, fun he => ?_⟩
    have := digits_range n d (by rw [h]; exact List.mem_cons_self ..)
    rw [he] at this
    exact absurd this.1 (by decide)

theorem readInt_decBytes (n : Nat) : readInt (decBytes n) = some (n : Int) := by
  rw [decBytes_eq]
  obtain ⟨d, ds, h, hd⟩ := digits_cons n
  have h2 := readNat_digits n
  rw [h] at h2 ⊢
  unfold readInt
  split
  · rename_i heq; cases heq
  · rename_i heq; injection heq with h1 _; exact absurd h1 hd
  · rw [h2]; rfl

theorem readInt_decInt (i : Int) : readInt (decInt i) = some i := by
  unfold decInt
  split
  · rename_i h
    rw [decBytes_eq]
    obtain ⟨d, ds, h1, hd⟩ := digits_cons i.natAbs
    have h2 := readNat_digits i.natAbs
    rw [h1] at h2 ⊢
    rw [readInt, h2, Option.map_some]
    congr 1; omega
  · rename_i h
    rw [readInt_decBytes]
    congr 1; omega

theorem plain_decBytes (n : Nat) : Plain (decBytes n) := by
  intro x hx
  rw [decBytes_eq] at hx
  have := digits_range n x hx
  constructor <;> (intro he; rw [he] at this; exact absurd this.1 (by decide))

theorem plain_decInt (i : Int) : Plain (decInt i) := by
  unfold decInt
  split
  · intro x hx
    rcases List.mem_cons.1 hx with rfl | hx
    · decide
    · exact plain_decBytes _ x hx
  · exact plain_decBytes _

theorem readValue_bulk (d : Nat) (b s : Bytes) : readValue (d + 1) (encBulk b ++ s) = some (.bulk b, s) := by
  have e : encBulk b ++ s = 36 :: (decBytes b.length ++ 13 :: 10 :: (b ++ 13 :: 10 :: s)) := by
    simp [encBulk, crlf, List.append_assoc]
  rw [e, readValue, readLine_append (plain_decBytes _)]
  simp only [show (36 : UInt8) ≠ 43 by decide, show (36 : UInt8) ≠ 45 by decide, show (36 : UInt8) ≠ 58 by decide, if_false,
    if_true, readInt_decBytes]
  rw [if_neg (by omega), if_neg (by omega)]
  simp

theorem readValue_line (d : Nat) (b s : Bytes) (h : Plain b) :
    readValue (d + 1) (43 :: (b ++ crlf) ++ s) = some (.simple b, s) ∧
      readValue (d + 1) (45 :: (b ++ crlf) ++ s) = some (.error b, s) := by
  have e : ∀ t : UInt8, t :: (b ++ crlf) ++ s = t :: (b ++ 13 :: 10 :: s) := by
    intro t; simp [crlf, List.append_assoc]
  rw [e, e, readValue, readValue, readLine_append h]
  exact ⟨rfl, rfl⟩

theorem readValue_int (d : Nat) (i : Int) (s : Bytes) :
    readValue (d + 1) (58 :: (decInt i ++ crlf) ++ s) = some (.int i, s) := by
  have e : 58 :: (decInt i ++ crlf) ++ s = 58 :: (decInt i ++ 13 :: 10 :: s) := by simp [crlf, List.append_assoc]
  rw [e, readValue, readLine_append (plain_decInt i)]
  simp only [show (58 : UInt8) ≠ 43 by decide, show (58 : UInt8) ≠ 45 by decide, if_false, if_true, readInt_decInt]
  rfl

theorem readValue_head (d n : Nat) (s : Bytes) : readValue (d + 1) (encHead n ++ s) =
    (readMany (readValue d) n s).map (fun (l, s) => (.array l, s)) := by
  have e : encHead n ++ s = 42 :: (decBytes n ++ 13 :: 10 :: s) := by simp [encHead, crlf, List.append_assoc]
  rw [e, readValue, readLine_append (plain_decBytes n)]
  simp only [show (42 : UInt8) ≠ 43 by decide, show (42 : UInt8) ≠ 45 by decide, show (42 : UInt8) ≠ 58 by decide,
    show (42 : UInt8) ≠ 36 by decide, if_false, if_true, readInt_decBytes]
  rw [if_neg (by omega)]
  rfl

/-- A reply that is at most `d - 1` arrays deep, with no end of line in its simple strings and errors. -/
def Fine : Nat → Reply → Prop
  | 0, _ => False
  | _ + 1, .nil => True
  | _ + 1, .simple s => Plain (chars s)
  | _ + 1, .err s => Plain (chars s)
  | _ + 1, .int _ => True
  | _ + 1, .bulk _ => True
  | d + 1, .arr l => ∀ r ∈ l, Fine d r
  | _ + 1, .crash => False

theorem readMany_list {d : Nat} (ih : ∀ r, Fine d r → ∃ v, valueOf r = some v ∧ ∀ s, readValue d (encReply r ++ s) = some (v, s))
    {l : List Reply} (h : ∀ r ∈ l, Fine d r) :
    ∃ vs, valueOf.values l = some vs ∧ vs.length = l.length ∧
      ∀ s, readMany (readValue d) l.length (encReply.encList l ++ s) = some (vs, s) := by
  induction l with
  | nil => exact ⟨[], rfl, rfl, fun s => by simp [encReply.encList, readMany]⟩
  | cons r l ihl =>
    obtain ⟨v, h1, h2⟩ := ih r (h r (List.mem_cons_self ..))
    obtain ⟨vs, h3, h5, h4⟩ := ihl (fun x hx => h x (List.mem_cons_of_mem _ hx))
    refine ⟨v :: vs, by simp [valueOf.values, h1, h3], by simp [h5], fun s => ?_⟩
    rw [List.length_cons, readMany, encReply.encList, List.append_assoc, h2]
    simp only [h4]

theorem readValue_reply (d : Nat) : ∀ r, Fine d r → ∃ v, valueOf r = some v ∧ ∀ s, readValue d (encReply r ++ s) = some (v, s) := by
  induction d with
  | zero => intro r h; exact absurd h (by simp [Fine])
  | succ d ih =>
    intro r h
    cases r with
    | nil =>
      refine ⟨_, rfl, fun s => ?_⟩
      simp only [encReply, crlf, List.cons_append, List.nil_append]
      rfl
    | simple x => exact ⟨_, rfl, fun s => (readValue_line d _ s h).1⟩
    | err x => exact ⟨_, rfl, fun s => (readValue_line d _ s h).2⟩
    | int i => exact ⟨_, rfl, fun s => readValue_int d i s⟩
    | bulk b => exact ⟨_, rfl, fun s => readValue_bulk d b s⟩
    | arr l =>
      obtain ⟨vs, h1, _, h2⟩ := readMany_list ih (l := l) h
      refine ⟨.array vs, by simp [valueOf, h1], fun s => ?_⟩
      rw [encReply, List.append_assoc, readValue_head, h2]
      rfl
    | crash => exact absurd h (by simp [Fine])

/-- A message that can be read back, other than those to mirrors. -/
def FineMsg : Msg → Prop
  | .reply r => Fine 4 r
  | .stream n l => n = l.length ∧ ∀ r ∈ l, Fine 3 r
  | .challenge nonce => Plain nonce
  | .notice cmd => Plain cmd
  | .nsinfo _ => True
  | .server => True
  | .mirrored => False

theorem readValue_mirror (now : Nat) (name : Bytes) (owner : Nat) (argv : List Bytes) (s : Bytes) :
    readValue 4 (mirrorText now name owner argv ++ s) = some (mirrorValue now name owner argv, s) := by
  have hnat : ∀ (n : Nat) (s : Bytes), readValue 3 (58 :: (decBytes n ++ crlf) ++ s) = some (.int n, s) := by
    intro n s
    have := readValue_int 2 n s
    rwa [decInt, if_neg (by omega), Int.natAbs_natCast] at this
  have hl : ∀ (l : List Bytes) (s : Bytes), readMany (readValue 3) l.length (l.flatMap encBulk ++ s) = some (l.map .bulk, s) := by
    intro l
    induction l with
    | nil => intro s; rfl
    | cons a l ih =>
      intro s
      rw [List.length_cons, readMany, List.flatMap_cons, List.append_assoc, readValue_bulk]
      simp only [ih, List.map_cons]
  rw [mirrorText]
  simp only [List.append_assoc]
  rw [readValue_head, show argv.length + 3 = (argv.length + 1 + 1) + 1 from rfl, readMany]
  rw [hnat]
  simp only [readMany]
  rw [readValue_bulk]
  simp only
  rw [hnat]
  simp only [hl]
  rfl

theorem readValue_msg (T : Texts) (mv : Value) {m : Msg} (h : FineMsg m) :
    ∃ v, msgValue T mv m = some v ∧ ∀ s, readValue 4 (encMsg T m ++ s) = some (v, s) := by
  cases m with
  | reply r => exact readValue_reply 4 r h
  | stream n l =>
    obtain ⟨rfl, h⟩ := h
    obtain ⟨vs, h1, _, h2⟩ := readMany_list (readValue_reply 3) (l := l) h
    refine ⟨.array vs, by simp [msgValue, h1], fun s => ?_⟩
    rw [encMsg, List.append_assoc, readValue_head, h2]
    rfl
  | nsinfo i => exact ⟨_, rfl, fun s => readValue_bulk 3 _ s⟩
  | server => exact ⟨_, rfl, fun s => readValue_bulk 3 _ s⟩
  | challenge b => exact ⟨_, rfl, fun s => (readValue_line 3 _ s h).1⟩
  | notice b => exact ⟨_, rfl, fun s => (readValue_line 3 _ s h).1⟩
  | mirrored => exact h.elim

/-! ### streams -/

theorem readLine_more {s l r : Bytes} (h : readLine s = some (l, r)) (t : Bytes) : readLine (s ++ t) = some (l, r ++ t) := by
  induction s generalizing l r with
  | nil => simp [readLine] at h
  | cons a s ih =>
    cases s with
    | nil => simp [readLine] at h
    | cons b s =>
      rw [readLine] at h
      rw [List.cons_append, List.cons_append, readLine]
      split at h
      · rename_i hc
        rw [if_pos hc]
        simp only [Option.some.injEq, Prod.mk.injEq] at h
        rw [← h.1, ← h.2]
      · rename_i hc
        rw [if_neg hc]
        split at h
        · cases h
        · rename_i l' r' heq
          simp only [Option.some.injEq, Prod.mk.injEq] at h
          have := ih heq
          rw [List.cons_append] at this
          rw [this]
          simp [h.1, h.2]

theorem readMany_more {f : Bytes → Option (Value × Bytes)} (hf : ∀ {s v r}, f s = some (v, r) → ∀ t, f (s ++ t) = some (v, r ++ t))
    {n : Nat} {s : Bytes} {l : List Value} {r : Bytes} (h : readMany f n s = some (l, r)) (t : Bytes) :
    readMany f n (s ++ t) = some (l, r ++ t) := by
  induction n generalizing s l r with
  | zero =>
    simp only [readMany, Option.some.injEq, Prod.mk.injEq] at h ⊢
    exact ⟨h.1, by rw [h.2]⟩
  | succ n ih =>
    rw [readMany] at h ⊢
    split at h
    · cases h
    · rename_i v s' hv
      rw [hf hv t]
      simp only
      split at h
      · cases h
      · rename_i l' r' hl
        simp only [Option.some.injEq, Prod.mk.injEq] at h
        rw [ih hl]
        simp [h.1, h.2]

/-- Bytes that come later do not change a value already complete. -/
theorem readValue_more {d : Nat} {s : Bytes} {v : Value} {r : Bytes} (h : readValue d s = some (v, r)) (t : Bytes) :
    readValue d (s ++ t) = some (v, r ++ t) := by
  induction d generalizing s v r t with
  | zero => simp [readValue] at h
  | succ d ih =>
    cases s with
    | nil => simp [readValue] at h
    | cons x s =>
      rw [readValue] at h
      rw [List.cons_append, readValue]
      split at h
      · cases h
      · rename_i line s' hl
        rw [readLine_more hl]
        simp only
        split at h
        · rename_i hx
          rw [if_pos hx]
          simp only [Option.some.injEq, Prod.mk.injEq] at h
          simp [h.1, h.2]
        · rename_i hx
          rw [if_neg hx]
          split at h
          · rename_i hx
            rw [if_pos hx]
            simp only [Option.some.injEq, Prod.mk.injEq] at h
            simp [h.1, h.2]
          · rename_i hx
            rw [if_neg hx]
            split at h
            · rename_i hx
              rw [if_pos hx]
              simp only [Option.map_eq_some_iff, Prod.mk.injEq] at h
              obtain ⟨i, h1, h2, h3⟩ := h
              rw [h1, Option.map_some, h2, h3]
            · rename_i hx
              rw [if_neg hx]
              split at h
              · rename_i hx
                rw [if_pos hx]
                split at h
                · cases h
                · rename_i i hi
                  split at h
                  · rename_i hx
                    rw [if_pos hx]
                    simp only [Option.some.injEq, Prod.mk.injEq] at h
                    simp [h.1, h.2]
                  · rename_i hx
                    rw [if_neg hx]
                    split at h
                    · cases h
                    · rename_i hx
                      rw [if_neg hx]
                      split at h
                      · rename_i hx
                        have hlen := congrArg List.length hx
                        rw [List.length_take, List.length_drop, List.length_cons, List.length_cons, List.length_nil] at hlen
                        simp only [Option.some.injEq, Prod.mk.injEq] at h
                        rw [List.drop_append_of_le_length (by omega), List.take_append_of_le_length (by rw [List.length_drop]; omega),
                          if_pos hx, List.take_append_of_le_length (by omega), List.drop_append_of_le_length (by omega), h.1, h.2]
                      · cases h
              · rename_i hx
                rw [if_neg hx]
                split at h
                · rename_i hx
                  rw [if_pos hx]
                  split at h
                  · cases h
                  · rename_i i hi
                    split at h
                    · cases h
                    · rename_i hx
                      rw [if_neg hx]
                      simp only [Option.map_eq_some_iff, Prod.mk.injEq, Prod.exists] at h
                      obtain ⟨l, r', h1, h2, h3⟩ := h
                      rw [readMany_more (fun hh t => ih hh t) h1, Option.map_some, h2, h3]
                · cases h

/-- A sequence of messages, each with its texts. -/
def encAllMsgs (l : List (Texts × Msg)) : Bytes := l.flatMap (fun x => encMsg x.1 x.2)

/-- Everything sent reads as the values meant, whatever comes later. -/
theorem readAll_msgs {l : List (Texts × Msg)} {vs : List Value}
    (h : ∀ (i : Nat) (x : Texts × Msg) (v : Value), l[i]? = some x → vs[i]? = some v → ∀ s, readValue 4 (encMsg x.1 x.2 ++ s) = some (v, s))
    (hl : l.length = vs.length) (fuel : Nat) (rest : Bytes) :
    readAll 4 (l.length + fuel) (encAllMsgs l ++ rest) = (vs ++ (readAll 4 fuel rest).1, (readAll 4 fuel rest).2) := by
  induction l generalizing vs with
  | nil =>
    have : vs = [] := List.length_eq_zero_iff.1 hl.symm
    subst this
    simp [encAllMsgs]
  | cons x l ih =>
    cases vs with
    | nil => simp at hl
    | cons v vs =>
      have h1 := h 0 x v rfl rfl
      have h2 := ih (vs := vs) (fun i y w h1 h2 => h (i + 1) y w (by simpa using h1) (by simpa using h2)) (by simpa using hl)
      rw [List.length_cons, Nat.add_right_comm, readAll]
      rw [encAllMsgs, List.flatMap_cons, List.append_assoc, h1]
      simp only
      rw [← encAllMsgs, h2]
      simp

/-- The part received so far reads as the first values. -/
theorem readAll_prefix {l : List (Texts × Msg)} {vs : List Value}
    (h : ∀ (i : Nat) (x : Texts × Msg) (v : Value), l[i]? = some x → vs[i]? = some v → ∀ s, readValue 4 (encMsg x.1 x.2 ++ s) = some (v, s))
    (hl : l.length = vs.length) {p : Bytes} (hp : p <+: encAllMsgs l) (fuel : Nat) :
    (readAll 4 fuel p).1 <+: vs := by
  induction l generalizing vs p fuel with
  | nil =>
    have hp : p = [] := List.prefix_nil.1 hp
    subst hp
    cases fuel with
    | zero => exact ⟨vs, rfl⟩
    | succ n => exact ⟨vs, rfl⟩
  | cons x l ih =>
    cases vs with
    | nil => simp at hl
    | cons v vs =>
      cases fuel with
      | zero => exact ⟨_, rfl⟩
      | succ fuel =>
        rw [readAll]
        split
        · exact ⟨_, rfl⟩
        · rename_i v' s' hv
          obtain ⟨t, ht⟩ := hp
          have h1 := readValue_more hv t
          rw [ht, encAllMsgs, List.flatMap_cons, h 0 x v rfl rfl, Option.some.injEq, Prod.mk.injEq] at h1
          obtain ⟨rfl, h1⟩ := h1
          have h2 := ih (vs := vs) (p := s') (fun i y w h1 h2 => h (i + 1) y w (by simpa using h1) (by simpa using h2))
            (by simpa using hl) ⟨t, h1.symm⟩ fuel
          simp only
          exact List.cons_prefix_cons.2 ⟨rfl, h2⟩

theorem encAllMsgs_length {l : List (Texts × Msg)} (h : ∀ x ∈ l, encMsg x.1 x.2 ≠ []) : l.length ≤ (encAllMsgs l).length := by
  induction l with
  | nil => exact Nat.zero_le _
  | cons x l ih =>
    have h1 := List.length_pos_iff.2 (h x (List.mem_cons_self ..))
    have h2 := ih (fun y hy => h y (List.mem_cons_of_mem _ hy))
    rw [encAllMsgs, List.flatMap_cons, List.length_append, List.length_cons, ← encAllMsgs]
    omega

theorem readAll_nil (d fuel : Nat) : readAll d fuel [] = ([], []) := by
  cases fuel with
  | zero => rfl
  | succ n =>
    rw [readAll]
    cases d <;> rfl

theorem decode_all {l : List (Texts × Msg)} {vs : List Value}
    (h : ∀ (i : Nat) (x : Texts × Msg) (v : Value), l[i]? = some x → vs[i]? = some v → ∀ s, readValue 4 (encMsg x.1 x.2 ++ s) = some (v, s))
    (hl : l.length = vs.length) : decode (encAllMsgs l) = (vs, []) := by
  have hlen : l.length ≤ (encAllMsgs l).length := by
    refine encAllMsgs_length (fun x hx hn => ?_)
    obtain ⟨i, hi⟩ := List.mem_iff_getElem?.1 hx
    have hi' := (List.getElem?_eq_some_iff.1 hi).1
    have := h i x (vs[i]'(hl ▸ hi')) hi (List.getElem?_eq_getElem _) []
    rw [hn] at this
    simp [readValue] at this
  have := readAll_msgs h hl ((encAllMsgs l).length - l.length) []
  rw [List.append_nil, readAll_nil, show l.length + ((encAllMsgs l).length - l.length) = (encAllMsgs l).length by omega] at this
  rw [decode, this, List.append_nil]

end Zdb.Wire
