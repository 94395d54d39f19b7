/-
C73: every text is made up within its buffer, and is the text meant.
-/
import Verif.Lemmas.Text
import Verif.Lemmas.UserCursor
import Verif.Props.DataRaw
import Verif.Spec.Example
namespace Zdb.Text
open Zdb.Wire

theorem printf_bind {α : Type} {b : Buf} {t : Bytes} {k : Buf → Option α} (h : b.text.length + t.length + 1 ≤ b.size) :
    (b.printf t >>= k) = k ⟨b.size, b.text ++ t⟩ := by rw [printf_ok h]; rfl

theorem copy_bind {α : Type} {b : Buf} {t : Bytes} {k : Buf → Option α} (h : b.text.length + t.length ≤ b.size) :
    (b.copy t >>= k) = k ⟨b.size, b.text ++ t⟩ := by rw [copy_ok h]; rfl

theorem only_bind {α : Type} {n : Nat} {t : Bytes} {k : Bytes → Option α} (h : t.length + 1 ≤ n) :
    (only n t >>= k) = k t := by rw [only_ok h]; rfl

/-- Sizes of texts for `omega`. -/
macro "sizes" : tactic =>
  `(tactic| ((try simp only [Buf.new, crlf, encHead, encBulk, List.length_append, List.length_cons, List.length_nil, List.nil_append, encBKey_length,
      encEKey_length, bkeyLen, ekeyLen] at *); omega))

/-! ### bulk strings -/

/-- C73: a bulk string is made up in a block of exactly its size. -/
theorem C73_bulk {p : Bytes} (hp : p.length < 2 ^ 64) : bulk p = some (encReply (.bulk p)) := by
  have h1 := decBytes_len64 hp
  unfold bulk
  rw [only_bind (by omega)]
  rw [copy_bind (by sizes), copy_bind (by sizes), copy_bind (by sizes), copy_bind (by sizes), copy_bind (by sizes)]
  simp [encReply, encBulk, Buf.new]

/-! ### SCAN, RSCAN -/

/-- The text of an item of SCAN. -/
def scanRowText (x : Scanned) : Bytes :=
  encReply (.arr [.bulk x.it.id, .int (asInt32 x.it.length), .int (asInt32 x.it.timestamp)])

theorem scanRow_ok {x : Scanned} (hx : ReadItem x.it) {b : Buf} (h : b.text.length + 296 ≤ b.size) :
    scanRow b x = some ⟨b.size, b.text ++ scanRowText x⟩ := by
  have h1 := decBytes_len8 hx.2
  have h2 := decInt_asInt32 x.it.length
  have h3 := decInt_asInt32 x.it.timestamp
  have h4 : (decBytes 3).length = 1 := by decide
  have h5 : x.it.id.take x.it.idlength = x.it.id := by rw [← hx.1]; exact List.take_length
  have h6 := hx.1
  have h7 := hx.2
  unfold scanRow
  rw [h5]
  rw [printf_bind (by sizes), printf_bind (by sizes), copy_bind (by sizes), printf_bind (by sizes), printf_ok (by sizes)]
  simp [scanRowText, encReply, encReply.encList, encBulk, hx.1, crlf]

theorem scanRowText_length {x : Scanned} (hx : ReadItem x.it) : (scanRowText x).length ≤ 295 := by
  have h1 := decBytes_len8 hx.2
  have h2 := decInt_asInt32 x.it.length
  have h3 := decInt_asInt32 x.it.timestamp
  have h4 : (decBytes (0 + 1 + 1 + 1)).length = 1 := by decide
  have h6 := hx.1
  have h7 := hx.2
  simp only [scanRowText, encReply, encReply.encList, encBulk, h6, encHead, crlf, List.length_append, List.length_cons, List.length_nil]
  omega

/-- The list of a SCAN fits in the block allocated for it, and is the text of the answer. -/
theorem scanSend_ok {l : List Scanned} (hl : ∀ x ∈ l, ReadItem x.it) : scanSend l = some (encReply (replyScan l)) := by
  unfold scanSend replyScan
  cases hlast : l.getLast? with
  | none => rfl
  | some last =>
    dsimp only
    have hne : 0 < l.length := by
      rcases l with _ | ⟨a, l⟩
      · simp at hlast
      · simp
    have h1 := decBytes_len_self hne
    have h2 : (decBytes 2).length = 1 := by decide
    have h3 : (decBytes 17).length = 2 := by decide
    have hk : keyRoom = 382 := by decide
    have hc : (cursorOf last).length = 17 := by simp [cursorOf, bkeyLen]
    rw [hk]
    rw [printf_bind (by sizes), copy_bind (by sizes), printf_bind (by sizes),
      each_ok (w := 296) (g := scanRowText) (fun x hx b hb => scanRow_ok (hl x hx) hb)
        (fun x hx => Nat.le_succ_of_le (scanRowText_length (hl x hx))) (by sizes)]
    have e : scanRowText =
        fun x => encReply (Reply.arr [.bulk x.it.id, .int (asInt32 x.it.length), .int (asInt32 x.it.timestamp)]) := rfl
    simp [encReply, encReply.encList, encBulk, encList_map, hc, e, Buf.new, bkeyLen]

/-- C73: SCAN.  Whatever the files contain, the answer is an error (a literal), or a list made up within its block; the
    remaining case is the copy beyond the id refuted in C28. -/
theorem C73_scan (c : Ctx) (s : Store) (argv : List Bytes) :
    cmdScan c s argv = .crash ∨ (∃ e, cmdScan c s argv = .err e) ∨
      ∃ l, cmdScan c s argv = replyScan l ∧ scanSend l = some (encReply (cmdScan c s argv)) := by
  unfold cmdScan
  rcases scanWith_ok (c := c) (s := s) (first := firstHeader s.ifiles) (walk := nextHeader s.ifiles)
    (walkUp_ok firstReal_ok _ _ _ _ _) (fun _ _ => walkUp_ok nextReal_ok _ _ _ _ _) argv with h | h | ⟨l, h, hl⟩
  · exact Or.inl h
  · exact Or.inr (Or.inl h)
  · exact Or.inr (Or.inr ⟨l, h, by rw [h]; exact scanSend_ok hl⟩)

/-- C73: RSCAN, in the same way. -/
theorem C73_rscan (c : Ctx) (s : Store) (argv : List Bytes) :
    cmdRscan c s argv = .crash ∨ (∃ e, cmdRscan c s argv = .err e) ∨
      ∃ l, cmdRscan c s argv = replyScan l ∧ scanSend l = some (encReply (cmdRscan c s argv)) := by
  unfold cmdRscan
  rcases scanWith_ok (c := c) (s := s) (first := lastHeader s) (walk := prevHeader s.ifiles)
    (walkDown_ok lastReal_ok _ _ _ _ _) (fun _ _ => walkDown_ok prevReal_ok _ _ _ _ _) argv with h | h | ⟨l, h, hl⟩
  · exact Or.inl h
  · exact Or.inr (Or.inl h)
  · exact Or.inr (Or.inr ⟨l, h, by rw [h]; exact scanSend_ok hl⟩)

/-! ### KSCAN, KEYCUR -/

theorem kscanRow_ok {e : Entry} (he : e.id.length < 256) {b : Buf} (h : b.text.length + 264 ≤ b.size) :
    kscanRow b e = some ⟨b.size, b.text ++ encBulk e.id⟩ := by
  have h1 := decBytes_len8 he
  unfold kscanRow
  rw [printf_bind (by sizes), copy_bind (by sizes), printf_ok (by sizes)]
  simp [encBulk]

theorem kscanSend_ok {l : List Entry} (hl : ∀ e ∈ l, e.id.length < 256) :
    kscanSend l = some (encReply (cmdKscan.kscanReply l)) := by
  unfold kscanSend cmdKscan.kscanReply
  rcases l with _ | ⟨a, t⟩
  · rfl
  · generalize hd : a :: t = l at *
    have hne : 0 < l.length := by rw [← hd]; simp
    have hem : l.isEmpty = false := by rw [← hd]; rfl
    rw [hem]
    simp only [Bool.false_eq_true, if_false]
    have h1 := decBytes_len_self hne
    have h2 : (decBytes 2).length = 1 := by decide
    have h3 : (decBytes (0 + 1)).length = 1 := by decide
    have hk : keyRoom = 382 := by decide
    rw [hk]
    rw [printf_bind (by sizes), printf_bind (by sizes),
      each_ok (w := 264) (g := fun e : Entry => encBulk e.id) (fun x hx b hb => kscanRow_ok (hl x hx) hb)
        (fun x hx => by
          have := decBytes_len8 (hl x hx)
          have := hl x hx
          sizes) (by sizes)]
    simp [encReply, encReply.encList, encBulk, encList_map, Buf.new]

/-- C73: KSCAN, on any namespace in user mode and after any run of commands. -/
theorem C73_kscan {cfg : Option Mode} {u : Nat} {tr : List (NsEvent × Reply)} {br : Branches} {s : Store}
    (h : UserRun cfg u tr br s) (key : Bytes) :
    kscanSend (kscanSel br u buckets key) = some (encReply (cmdKscan.kscanReply (kscanSel br u buckets key))) := by
  obtain ⟨G, i, -, -⟩ := h.inv
  refine kscanSend_ok (fun e he => ?_)
  have h1 := (i.kscanSel key).subset (List.mem_map_of_mem he)
  obtain ⟨x, hx, hxe⟩ := List.mem_map.1 h1
  obtain ⟨l, hl, rfl⟩ := List.mem_map.1 (List.mem_filter.1 hx).1
  rw [← hxe]
  exact (i.recs l (live_mem hl)).wf.2.1

/-- C73: KEYCUR. -/
theorem C73_keycur (k : BKey) : keycur (encBKey k) = some (encReply (.bulk (encBKey k))) := by
  have h3 : (decBytes 17).length = 2 := by decide
  unfold keycur
  rw [printf_bind (by sizes), copy_bind (by sizes), printf_bind (by sizes)]
  simp [encReply, encBulk, Buf.new, bkeyLen]

/-! ### HISTORY, DATA RAW -/

/-- C73: HISTORY, for any item read from a file. -/
theorem C73_history {s : Store} {i o n : Nat} {it : Item} {p : Bytes} (hi : itemGetDisk s i o n = some it) (k : EKey)
    (hp : dataGet s it.offset it.length it.dataid it.idlength = some p) :
    historyArray k it.timestamp p = some (encReply (historySend s it k)) := by
  obtain ⟨b1, b2⟩ := itemGetDisk_bounds hi
  have b3 := dataGet_bound b1 hp
  have h1 := decBytes_len32 b2
  have h2 := decBytes_len32 b3
  have h3 : (decBytes 3).length = 1 := by decide
  have h4 : (decBytes 8).length = 1 := by decide
  have h5 : (decBytes (decBytes it.timestamp).length).length ≤ 3 := decBytes_len8 (by omega)
  have h6 : (decBytes (0 + 1 + 1 + 1)).length = 1 := by decide
  unfold historyArray historySend
  rw [hp]
  dsimp only
  split
  · rename_i hk
    rw [printf_bind (by sizes), copy_bind (by sizes), only_bind (by sizes), printf_bind (by sizes), printf_bind (by sizes),
      copy_bind (by sizes), copy_bind (by sizes)]
    simp [encReply, encReply.encList, encBulk, Buf.new, ekeyLen]
  · rename_i hk
    rw [printf_bind (by sizes), only_bind (by sizes), printf_bind (by sizes), printf_bind (by sizes),
      copy_bind (by sizes), copy_bind (by sizes)]
    simp [encReply, encReply.encList, encBulk, Buf.new, crlf]

theorem hex8_length {n : Nat} (h : n < 2 ^ 32) : (hex8 n).length = 10 := by
  unfold hex8
  have h1 : (Nat.toDigits 16 n).length ≤ 8 :=
    (Nat.length_toDigits_le_iff (by decide) (by decide)).2 (Nat.lt_of_lt_of_le h (by decide))
  simp only [List.length_append, List.length_cons, List.length_nil, List.length_replicate, List.length_map]
  omega

/-- C73: DATA RAW, for any record found. -/
theorem C73_data_raw {s : Store} {f : Nat} {off : Int} {h : DHdr} {id p : Bytes} (hr : dataRaw s f off = .found h id p)
    (hn : h.datalength ≠ 0) :
    rawArray h id p = some (encReply
      (.arr [.bulk id, .int h.previous, .bulk (hex8 h.integrity), .int h.flags, .int h.timestamp, .bulk p])) := by
  obtain ⟨f, -, -, ⟨_, _, -, -, ⟨w1, w2, w3, w4, w5, w6⟩, e1, e2⟩, -⟩ := dataRaw_sound hr
  have h1 := decBytes_len8 w1
  have h2 := decBytes_len32 w2
  have h3 := decBytes_len32 w3
  have h4 := decBytes_len8 w5
  have h5 := decBytes_len32 w6
  have h6 := hex8_length w4
  have h7 : (decBytes 6).length = 1 := by decide
  have h8 : (decBytes 10).length = 2 := by decide
  unfold rawArray
  rw [printf_bind (by sizes), printf_bind (by sizes), copy_bind (by sizes), printf_bind (by sizes), printf_bind (by sizes),
    printf_bind (by sizes), printf_bind (by sizes), printf_bind (by sizes), if_pos (by omega), printf_bind (by sizes),
    copy_bind (by sizes)]
  rw [printf_bind (by sizes)]
  simp [encReply, encReply.encList, encBulk, Buf.new, decInt_nat, h6, e1, e2]

/-! ### mirrors -/

theorem mirrorArgs_ok : ∀ {l : List Bytes} {b : Buf}, b.text.length + (l.flatMap encBulk).length ≤ b.size →
    each mirrorArg l b = some ⟨b.size, b.text ++ l.flatMap encBulk⟩
  | [], b, _ => by simp [each]
  | a :: l, b, h => by
    rw [List.flatMap_cons, List.length_append] at h
    have h1 : mirrorArg b a = some ⟨b.size, b.text ++ encBulk a⟩ := by
      unfold mirrorArg
      rw [printf_bind (by sizes), copy_bind (by sizes), copy_ok (by sizes)]
      simp [encBulk]
    rw [each, h1, Option.bind_some, mirrorArgs_ok (by simp only [List.length_append]; omega)]
    simp

theorem mirrorLength_ok {now owner : Nat} {name : Bytes} {argv : List Bytes} (hn : now < 2 ^ 64) (ho : owner < 2 ^ 32)
    (hc : argv.length < 2 ^ 31) (ha : ∀ a ∈ argv, a.length < 2 ^ 31) :
    mirrorLength now name owner argv = some (mirrorText now name owner argv).length := by
  have h1 := decBytes_len64 hn
  have h2 := decBytes_len32 ho
  have h3 : (decBytes (argv.length + 3)).length ≤ 10 := decBytes_len32 (by omega)
  have hl : ∀ l : List Bytes, (∀ a ∈ l, a.length < 2 ^ 31) →
      l.foldr (fun a r => r.bind fun n => (only 256 (36 :: (decBytes a.length ++ crlf))).map
        fun t => t.length + (a.length + 2) + n) (some 0) = some (l.flatMap encBulk).length := by
    intro l
    induction l with
    | nil => intro _; rfl
    | cons a l ih =>
      intro h
      have h4 := decBytes_len32 (Nat.lt_of_lt_of_le (h a (List.mem_cons_self ..)) (by decide))
      rw [List.foldr_cons, ih (fun x hx => h x (List.mem_cons_of_mem _ hx)), Option.bind_some,
        only_ok (by sizes)]
      simp only [Option.map_some, List.flatMap_cons, List.length_append, encBulk, List.length_cons, crlf, List.length_nil]
      congr 1
      omega
  unfold mirrorLength
  rw [only_bind (by sizes), only_bind (by sizes), only_bind (by sizes), hl argv ha]
  simp only [mirrorText, List.length_append]
  rfl

/-- C73: what is sent to a mirror fits exactly in the block whose size was counted before. -/
theorem C73_mirror {now owner : Nat} {name : Bytes} {argv : List Bytes} (hn : now < 2 ^ 64) (ho : owner < 2 ^ 32)
    (hc : argv.length < 2 ^ 31) (ha : ∀ a ∈ argv, a.length < 2 ^ 31) (hne : argv ≠ []) :
    mirror now name owner argv = some (mirrorText now name owner argv) := by
  have h0 : 0 < (argv.flatMap encBulk).length := by
    rcases argv with _ | ⟨a, l⟩
    · exact absurd rfl hne
    · simp [encBulk]
  unfold mirror
  rw [mirrorLength_ok hn ho hc ha]
  have hL : (mirrorText now name owner argv).length = (encHead (argv.length + 3)).length +
      (58 :: (decBytes now ++ crlf)).length + (encBulk name).length + (58 :: (decBytes owner ++ crlf)).length +
      (argv.flatMap encBulk).length := by
    simp only [mirrorText, List.length_append]
  generalize hM : (mirrorText now name owner argv).length = M at *
  show (Buf.printf (Buf.new M) (encHead (argv.length + 3)) >>= _) = _
  have big : ∀ t : Bytes, (Buf.mk M t).text = t ∧ (Buf.mk M t).size = M := fun t => ⟨rfl, rfl⟩
  rw [printf_bind (by simp only [Buf.new, List.length_nil]; omega),
    printf_bind (by simp only [Buf.new, List.length_append, List.length_nil]; omega),
    printf_bind (by simp only [Buf.new, List.length_append, List.length_nil]; omega),
    printf_bind (by simp only [Buf.new, List.length_append, List.length_nil]; omega),
    mirrorArgs_ok (by simp only [Buf.new, List.length_append, List.length_nil]; omega)]
  have e : [] ++ encHead (argv.length + 3) ++ (58 :: (decBytes now ++ crlf)) ++ encBulk name ++
      (58 :: (decBytes owner ++ crlf)) ++ argv.flatMap encBulk = mirrorText now name owner argv := by
    simp [mirrorText]
  show (if (([] ++ encHead (argv.length + 3) ++ (58 :: (decBytes now ++ crlf)) ++ encBulk name ++
      (58 :: (decBytes owner ++ crlf)) ++ argv.flatMap encBulk : Bytes)).length = M then some _ else none) = _
  rw [e, hM, if_pos rfl]
  exact congrArg some e

/-! ### short answers -/

/-- C73: a number in an array of at least 32 characters. -/
theorem C73_number {room : Nat} (hr : 32 ≤ room) {i : Int} (h1 : - 2 ^ 63 ≤ i) (h2 : i < 2 ^ 64) :
    number room i = some (encReply (.int i)) := by
  have hd : (decBytes i.natAbs).length ≤ 20 := decBytes_len64 (by omega)
  have : (decInt i).length ≤ 21 := by
    unfold decInt; split
    · simp only [List.length_cons]; omega
    · omega
  unfold number
  rw [only_ok (by sizes)]
  simp [encReply]

/-- C73: TIME. -/
theorem C73_time {sec usec : Nat} (h1 : sec < 2 ^ 64) (h2 : usec < 2 ^ 64) :
    time sec usec = some (encReply (.arr [.bulk (decBytes sec), .bulk (decBytes usec)])) := by
  have b1 := decBytes_len64 h1
  have b2 := decBytes_len64 h2
  have h3 : (decBytes 2).length = 1 := by decide
  have h4 : (decBytes (decBytes sec).length).length ≤ 3 := decBytes_len8 (by omega)
  have h5 : (decBytes (decBytes usec).length).length ≤ 3 := decBytes_len8 (by omega)
  unfold time
  rw [only_bind (by sizes), only_bind (by sizes), only_ok (by sizes)]
  simp [encReply, encReply.encList, encBulk]

/-- C73: the head of MGET and of NSLIST. -/
theorem C73_head {n : Nat} (h : n < 2 ^ 64) : arrayHead n = some (encHead n) := by
  have b1 := decBytes_len64 h
  exact only_ok (by sizes)

/-- C73: a line of NSLIST; names have at most 128 bytes. -/
theorem C73_nslist {name : Bytes} (h : name.length ≤ 128) : nslistLine name = some (encReply (.bulk name)) := by
  have b1 := decBytes_len8 (n := name.length) (by omega)
  unfold nslistLine
  rw [only_ok (by sizes)]
  rfl

/-- C73: the nonce of AUTH SECURE CHALLENGE, eight bytes in hexadecimal. -/
theorem C73_challenge {nonce : Bytes} (h : nonce.length = 16) (T : Texts) :
    challenge nonce = some (encMsg T (.challenge nonce)) := by
  unfold challenge
  rw [only_ok (by sizes)]
  rfl

/-- C73: the list of files given to the hook of a jump. -/
theorem C73_hook_dirty {l : List Nat} (h : ∀ n ∈ l, n < 2 ^ 31) :
    hookDirty l = some (l.flatMap (fun n => decBytes n ++ [32])).dropLast := by
  unfold hookDirty
  rw [each_ok (w := 16) (g := fun n => decBytes n ++ [32])
    (fun n hn b hb => printf_ok (by have := decBytes_len32 (n := n) (Nat.lt_trans (h n hn) (by decide)); sizes))
    (fun n hn => by have := decBytes_len32 (n := n) (Nat.lt_trans (h n hn) (by decide)); sizes) (by sizes)]
  simp [Buf.new]

/-! ### INFO, NSINFO -/

/-- The text of a line. -/
def lineText (x : String × Bytes) : Bytes := chars x.1 ++ (x.2 ++ [10])

theorem lines_ok : ∀ {l : List (String × Bytes)} {b : Buf}, b.text.length + (l.flatMap lineText).length + 1 ≤ b.size →
    each infoLine l b = some ⟨b.size, b.text ++ l.flatMap lineText⟩
  | [], b, _ => by simp [each]
  | x :: l, b, h => by
    rw [List.flatMap_cons, List.length_append] at h
    rw [each, infoLine, printf_ok (by have : (chars x.1 ++ (x.2 ++ [10])).length = (lineText x).length := rfl; omega), Option.bind_some,
      lines_ok (by
        have : (chars x.1 ++ (x.2 ++ [10])).length = (lineText x).length := rfl
        simp only [List.length_append] at *; omega)]
    simp [lineText]

theorem zip_length {w : Nat} : ∀ (ls : List String) (vs : List Bytes), (∀ v ∈ vs, v.length ≤ w) →
    ((ls.zip vs).flatMap lineText).length ≤ (ls.map (fun l => (chars l).length)).sum + (w + 1) * ls.length
  | [], _, _ => by simp
  | _ :: _, [], _ => by simp
  | a :: ls, v :: vs, h => by
    have h1 := zip_length ls vs (fun x hx => h x (List.mem_cons_of_mem _ hx))
    have h2 := h v (List.mem_cons_self ..)
    simp only [List.zip_cons_cons, List.flatMap_cons, List.length_append, List.map_cons, List.sum_cons, List.length_cons, Nat.mul_add,
      lineText, List.length_nil]
    omega

/-- C73: INFO; each value is a number or a name of a version of at most 64 bytes. -/
theorem C73_info {values : List Bytes} (h : ∀ v ∈ values, v.length ≤ 64) :
    info values = some (encBulk ((infoLabels.zip values).flatMap lineText)) := by
  have h1 := zip_length infoLabels values h
  have h2 : (infoLabels.map (fun l => (chars l).length)).sum + (64 + 1) * infoLabels.length ≤ 4000 := by decide +kernel
  unfold info
  rw [lines_ok (by simp only [Buf.new, List.length_nil]; omega)]
  show bulk ((Buf.new 4096).text ++ _) = _
  simp only [Buf.new, List.nil_append]
  rw [C73_bulk (by omega)]
  rfl

/-- The lines shown by NSINFO. -/
def nsinfoLines (values : List (Option Bytes)) : List (String × Bytes) :=
  (nsinfoLabels.zip values).filterMap (fun x => x.2.map (fun v => (x.1, v)))

theorem filterMap_length : ∀ (ls : List String) (vs : List (Option Bytes)),
    (((ls.zip vs).filterMap (fun x => x.2.map (fun v => (x.1, v)))).flatMap lineText).length ≤
      (ls.map (fun l => (chars l).length + 1)).sum + (vs.map (fun v => (v.getD []).length)).sum
  | [], _ => by simp
  | _ :: _, [] => by simp
  | a :: ls, v :: vs => by
    have h1 := filterMap_length ls vs
    cases v with
    | none =>
      simp only [List.zip_cons_cons, List.map_cons, List.sum_cons, List.filterMap_cons, Option.map_none, Option.getD_none,
        List.length_nil] at *
      omega
    | some v =>
      simp only [List.zip_cons_cons, List.map_cons, List.sum_cons, List.filterMap_cons, Option.map_some, Option.getD_some,
        List.length_nil, List.flatMap_cons, List.length_append, lineText, List.length_cons] at *
      omega

/-- C73: NSINFO, when what it shows of names, passwords, paths and numbers has at most 7000 bytes.  Missing: longer paths,
    which nothing refuses. -/
theorem C73_nsinfo_partial {values : List (Option Bytes)} (h : (values.map (fun v => (v.getD []).length)).sum ≤ 7000) :
    nsinfo values = some (encBulk ((nsinfoLines values).flatMap lineText)) := by
  have h1 := filterMap_length nsinfoLabels values
  have h2 : (nsinfoLabels.map (fun l => (chars l).length + 1)).sum ≤ 1000 := by decide +kernel
  unfold nsinfo nsinfoLines
  rw [lines_ok (by simp only [Buf.new, List.length_nil]; omega)]
  show bulk ((Buf.new 8192).text ++ _) = _
  simp only [Buf.new, List.nil_append]
  rw [C73_bulk (by omega)]
  rfl

/-! ### names of files -/

/-- C73: names of files, when the directory of the index has at most 239 bytes and that of the data at most 4083.
    Missing: longer ones, see `C73_name_refuted`. -/
theorem C73_names_partial {idir ddir : Bytes} (hi : idir.length ≤ 239) (hd : ddir.length ≤ 4083) {id : Nat} (h : id < 2 ^ 32) :
    legacyName idir = some (idir ++ 47 :: chars "zdb-index-00000") ∧
    indexFileName idir id = some (idir ++ 47 :: 105 :: decBytes id) ∧
    indexOpenName idir id = some (idir ++ 47 :: 105 :: decBytes id) ∧
    indexOneshotName idir id = some (idir ++ 47 :: 105 :: decBytes id) ∧
    dataFileName ddir id = some (ddir ++ 47 :: 100 :: decBytes id) ∧
    dataOpenName ddir id = some (ddir ++ 47 :: 100 :: decBytes id) := by
  have h1 := decBytes_len32 h
  have h2 : (chars "zdb-index-00000").length = 15 := by decide
  unfold legacyName indexFileName indexOpenName indexOneshotName dataFileName dataOpenName joinPath
  refine ⟨only_ok (by sizes), only_ok (by sizes), only_ok (by sizes), only_ok (by sizes), only_ok (by sizes), only_ok (by sizes)⟩

/-- C73 fails for longer directories: with an index path of 111 bytes, NSNEW accepts a name of 128 bytes and the load of
    its index writes beyond `legacy[256]`. -/
theorem C73_name_refuted :
    ∃ root name : Bytes, root.length = 111 ∧ nsArg [str "NSNEW", name] = .ok name ∧ validName name = true ∧
      legacyName (joinPath root name) = none := by
  refine ⟨List.replicate 111 97, List.replicate 128 98, by simp, by decide +kernel, by decide +kernel, ?_⟩
  exact only_over (by
    have h2 : (chars "zdb-index-00000").length = 15 := by decide
    simp only [joinPath, List.length_append, List.length_cons, List.length_replicate, h2]
    omega)

/-! ### arguments -/

theorem argCopy_ok {limit room : Nat} (h : limit < room) (a : Bytes) :
    argCopy limit room a = if a.length > limit then none else some (some (cstr a)) := by
  unfold argCopy
  split
  · rfl
  · have : (cstr a).length ≤ a.length := (List.takeWhile_sublist _).length_le
    rw [only_ok (by omega)]

/-- C73: names, values and passwords given as arguments are refused or copied whole (up to a NUL). -/
theorem C73_arguments_partial (a : Bytes) :
    argNamespace a = (if a.length > 128 then none else some (some (cstr a))) ∧
    argValue a = (if a.length > 63 then none else some (some (cstr a))) ∧
    argAuth a = (if a.length > 128 then none else some (some (cstr a))) ∧
    argSelect a = (if a.length > 255 then none else some (some (cstr a))) ∧
    argWait a = (if a.length > 16 then none else some (some (cstr a))) ∧
    (a.length ≠ 256 → argSub a = if a.length > 255 then none else some (some (cstr a))) := by
  refine ⟨argCopy_ok (by decide) a, argCopy_ok (by decide) a, argCopy_ok (by decide) a, argCopy_ok (by decide) a,
    argCopy_ok (by decide) a, fun h => ?_⟩
  unfold argSub argCopy
  by_cases h1 : a.length > 255
  · rw [if_pos h1, if_pos (by omega)]
  · have : (cstr a).length ≤ a.length := (List.takeWhile_sublist _).length_le
    rw [if_neg h1, if_neg (by omega), only_ok (by omega)]

/-- C73 fails for a subcommand of INDEX or DATA and a property of NSSET of 256 bytes: its NUL is written beyond the array. -/
theorem C73_argument_refuted {a : Bytes} (h : a.length = 256) (hz : ∀ x ∈ a, x ≠ 0) : argSub a = some none := by
  unfold argSub argCopy
  have : cstr a = a := by
    unfold cstr
    clear h
    induction a with
    | nil => rfl
    | cons x l ih =>
      rw [List.takeWhile_cons, if_pos (by simpa using hz x (List.mem_cons_self ..)), ih (fun y hy => hz y (List.mem_cons_of_mem _ hy))]
  rw [if_neg (by omega), this, only_over (by omega)]

/-! ### cases -/

/-- An item with the longest key. -/
def exScanned : Scanned :=
  ⟨3, 27, { idlength := 255, offset := 28, length := 4294967295, previous := 0, flags := 0, dataid := 3, timestamp := 2147483648,
            crc := 7, parentid := 0, parentoff := 0, id := List.replicate 255 65 }⟩

/-- The longest row there is, alone in a list: 318 of the 382 bytes of the block are used, and the text ends with the two
    numbers, printed as negative ones. -/
theorem C73_example_scan : ReadItem exScanned.it ∧
    (scanSend [exScanned]).map List.length = some 318 ∧
    (scanSend [exScanned]).map (List.drop 296) = some (chars "A\r\n:-1\r\n:-2147483648\r\n") := by
  refine ⟨⟨by decide +kernel, by decide⟩, by decide +kernel, by decide +kernel⟩

/-- A request sent to a mirror. -/
theorem C73_example_mirror : mirror 1700000000 (str "ns") 5 [str "SET", str "k", []] =
    some (chars "*6\r\n:1700000000\r\n$2\r\nns\r\n:5\r\n$3\r\nSET\r\n$1\r\nk\r\n$0\r\n\r\n") := by decide +kernel

/-- A reply of HISTORY without older version. -/
theorem C73_example_history : historyArray ⟨0, 0⟩ 12 (str "pay") =
    some (chars "*3\r\n$-1\r\n$2\r\n12\r\n$3\r\npay\r\n") := by decide +kernel

/-- A property of 256 letters. -/
theorem C73_example_argument : argSub (List.replicate 256 97) = some none ∧
    argSub (List.replicate 257 97) = none ∧ argSub (str "mode") = some (some (str "mode")) := by decide +kernel

end Zdb.Text
