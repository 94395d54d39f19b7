/-
C76: the server starts as its command line says, or not at all.
-/
import Verif.Lemmas.Options
import Verif.Props.Protect
namespace Zdb.Options

theorem socket_over (l : List Ask) : (over usual l).socket = lastAsk Ask.socket? l := by
  show (lastAsk _ l).or none = _
  cases lastAsk Ask.socket? l <;> rfl

theorem admin_over (l : List Ask) : (over usual l).adminpwd = lastAsk Ask.admin? l := by
  show (lastAsk _ l).or none = _
  cases lastAsk Ask.admin? l <;> rfl

theorem lastAsk_none {β : Type} (f : Ask → Option β) (l : List Ask) : lastAsk f l = none ↔ ∀ a ∈ l, f a = none := by
  induction l with
  | nil => simp [lastAsk]
  | cons a l ih => rw [lastAsk_cons, Option.or_eq_none_iff, ih]; simp [and_comm]

theorem admin_none (l : List Ask) : (over usual l).adminpwd.isNone = true ↔ ∀ p, Ask.admin p ∉ l := by
  rw [admin_over, Option.isNone_iff_eq_none, lastAsk_none]
  constructor
  · intro h p hp; exact absurd (h _ hp) (by simp [Ask.admin?])
  · intro h a ha
    cases a <;> try rfl
    exact absurd ha (h _)

/-- The settings are those asked for: every option is obeyed however it is spelled, the last one where several ask for the
    same, and what nobody asked for is as usual.  Protection without a password stops the server.  Partial: words that
    are no options are passed over (`C76_word_refuted`, `C76_swallow_refuted`); the values of `--maxsize`, `--synctime` and
    `--rotate` have to be numbers (`C76_maxsize_refuted`), the one of `--datasize` a whole number with a unit
    (`C76_datasize_refuted`). -/
theorem C76_obeyed_partial {ld : Bytes → StrTold} (hld : ReadsNumbers ld) {ws rest : List Bytes} {l : List Ask} (h : Says ws l)
    (hr : End rest) :
    (Ask.protect ∈ l ∧ (∀ p, Ask.admin p ∉ l) ∧ start ld (ws ++ rest) = .exit 1) ∨
    (¬ (Ask.protect ∈ l ∧ ∀ p, Ask.admin p ∉ l) ∧ start ld (ws ++ rest) = .go (wanted l)) := by
  have hc : takeAll ld defaults (getopt longOptions (ws ++ rest)) = .go (over usual l) := by
    rw [takeAll_says hld h, getopt_end hr, usual_eq]; rfl
  have hp : (over usual l).protect = decide (Ask.protect ∈ l) := Bool.or_false _
  have hd : (over usual l).dualnet = decide (Ask.dualnet ∈ l) := Bool.or_false _
  unfold start
  rw [hc]
  dsimp only
  by_cases hbad : Ask.protect ∈ l ∧ ∀ p, Ask.admin p ∉ l
  · left
    refine ⟨hbad.1, hbad.2, ?_⟩
    rw [if_pos]
    rw [hp, (admin_none l).2 hbad.2]
    simp [hbad.1]
  · right
    refine ⟨hbad, ?_⟩
    rw [if_neg]
    · congr 1
      unfold wanted
      rw [← socket_over]
      dsimp only
      by_cases hs : (over usual l).socket.isSome = true ∧ Ask.dualnet ∉ l
      · rw [if_pos hs, if_pos]
        rw [hd, hs.1]; simp [hs.2]
      · rw [if_neg hs, if_neg]
        rw [hd, Bool.and_eq_true, Bool.not_eq_true', decide_eq_false_iff_not]
        exact hs
    · rw [hp, Bool.and_eq_true, decide_eq_true_iff, admin_none]
      exact hbad

/-- Clients are awaited where it was asked: at the socket file alone, at the address alone, or at both. -/
theorem C76_places_partial {ld : Bytes → StrTold} (hld : ReadsNumbers ld) {ws rest : List Bytes} {l : List Ask} (h : Says ws l)
    (hr : End rest) (hp : Ask.protect ∈ l → ∃ p, Ask.admin p ∈ l) (hd : Ask.dump ∉ l) :
    fate true 0 (start ld (ws ++ rest)) = .serves (wantedPlaces l) := by
  rcases C76_obeyed_partial hld h hr with ⟨h1, h2, _⟩ | ⟨_, h2⟩
  · obtain ⟨p, hp⟩ := hp h1
    exact absurd hp (h2 p)
  · rw [h2]
    have hdump : (wanted l).dump = false := by
      show (decide (Ask.dump ∈ l) || false) = false
      simp [hd]
    unfold fate
    simp only [Bool.not_true, Bool.false_eq_true, if_false, hdump, ne_eq, not_true_eq_false, decide_false, Bool.and_false]
    congr 1
    unfold places wantedPlaces wanted
    dsimp only
    rw [socket_over]
    have hl : (over usual l).listen = some ((lastAsk Ask.listen? l).getD (text "::")) := by
      show (lastAsk _ l).or (some _) = _
      cases lastAsk Ask.listen? l <;> rfl
    have hpt : (over usual l).port = (lastAsk Ask.port? l).getD (text "9900") := rfl
    rw [hl, hpt]
    cases lastAsk Ask.socket? l with
    | none => simp
    | some p => by_cases hn : Ask.dualnet ∈ l <;> simp [hn]

/-! ### refusals -/

theorem dashes_def (two : Bool) : (if two then [45, 45] else [45] : Bytes) = dashes two := rfl

theorem Wrong.stops {ld : Bytes → StrTold} (hld : ReadsNumbers ld) {ws : List Bytes} (h : Wrong ld ws) (c : Cfg) :
    takeAll ld c (getopt longOptions ws) = .exit 1 := by
  have opt : ∀ {used v ws} (two joined : Bool) (o : LongOpt Key), Spells used o.name → o ∈ longOptions → o.arg = true →
      takeOpt ld c (.opt o.val v) = .exit 1 →
      takeAll ld c (getopt longOptions (spell two joined used (some v) ++ ws)) = .exit 1 := by
    intro used v ws two joined o hs ho ha ht
    have hm : (o.name, o.arg) ∈ names := by
      rw [names_eq]; exact List.mem_map_of_mem (f := fun o : LongOpt Key => (o.name, o.arg)) ho
    rw [getopt_spell two joined (hs.sound hm) (hs.find ho) (value := some v) ha.symm, takeAll]
    simp only [Option.getD_some, ht]
  cases h with
  | @name used value ws two hn h61 h45 hne =>
    rw [dashes_def]
    have hr : Option.elim value [] (61 :: ·) = [] ∨ ∃ v, Option.elim value [] (61 :: ·) = 61 :: v := by
      cases value with
      | none => exact .inl rfl
      | some v => exact .inr ⟨v, rfl⟩
    rw [getopt_word two ⟨hne, h45, h61⟩ hr, hn.find]
    rfl
  | @valued used name v ws two hm hs =>
    obtain ⟨o, ho, e1, e2⟩ := mem_names hm
    dsimp only at e1 e2
    subst e1
    show takeAll ld c (getopt longOptions ((dashes two ++ used ++ 61 :: v) :: ws)) = _
    rw [getopt_word two (hs.sound hm) (.inr ⟨v, rfl⟩), hs.find ho]
    dsimp only
    rw [e2]
    rfl
  | @missing used name two hm hs =>
    obtain ⟨o, ho, e1, e2⟩ := mem_names hm
    dsimp only at e1 e2
    subst e1
    show takeAll ld c (getopt longOptions ((dashes two ++ used) :: [])) = _
    rw [show dashes two ++ used = dashes two ++ used ++ [] by rw [List.append_nil],
      getopt_word two (hs.sound hm) (.inl rfl), hs.find ho]
    dsimp only
    rw [e2]
    rfl
  | mode two joined hs h1 h2 h3 =>
    refine opt two joined ⟨text "mode", true, .mode⟩ hs (by simp [longOptions]) rfl ?_
    show (if _ then _ else _) = _
    rw [if_neg h1, if_neg h2, if_neg h3]
  | @datasize used n u ws two joined hs hlt hno =>
    refine opt two joined ⟨text "datasize", true, .datasize⟩ hs (by simp [longOptions]) rfl ?_
    simp only [takeOpt, humanSize_number hld hlt]
    unfold Ask.Ok at hno
    by_cases h1 : n * 1024 ^ u.val ≥ 0xffffffff
    · rw [if_pos h1]
    · rw [if_neg h1, if_pos (by omega)]
  | noNumber two joined hs hb =>
    refine opt two joined ⟨text "datasize", true, .datasize⟩ hs (by simp [longOptions]) rfl ?_
    have : ∀ v, ((ld v).errno = true ∨ (ld v).rest = v) → humanSize ld v = .invalid := by
      intro v hv
      unfold humanSize
      dsimp only
      rw [if_pos]
      rcases hv with h | h <;> simp [h]
    simp only [takeOpt, this _ hb]
  | @help used ws two hs =>
    have hm : (text "help", false) ∈ names := by simp [names]
    rw [getopt_spell two false (hs.sound hm) (hs.find (o := ⟨text "help", false, .help⟩) (by simp [longOptions])) rfl]
    rfl

/-- The server does not start when an option is unknown or ambiguous, has no value or one too many, or a value out of range;
    nor when it is asked for help. -/
theorem C76_refused {ld : Bytes → StrTold} (hld : ReadsNumbers ld) {ws bad : List Bytes} {l : List Ask} (h : Says ws l)
    (hb : Wrong ld bad) : start ld (ws ++ bad) = .exit 1 := by
  unfold start
  rw [takeAll_says hld h, hb.stops hld]

/-- Asked for its version, the server prints it and ends without a failure. -/
theorem C76_version {ld : Bytes → StrTold} (hld : ReadsNumbers ld) {ws more : List Bytes} {l : List Ask} (h : Says ws l)
    (two : Bool) {used : Bytes} (hs : Spells used (text "version")) : start ld (ws ++ (spell two false used none ++ more)) = .exit 0 := by
  have hm : (text "version", false) ∈ names := by simp [names]
  unfold start
  rw [takeAll_says hld h,
    getopt_spell two false (hs.sound hm) (hs.find (o := ⟨text "version", false, .version⟩) (by simp [longOptions])) rfl]
  rfl

/-! ### any command line -/

/-- What the options cannot break. -/
def Fit (c : Cfg) : Prop := 524288 ≤ c.datasize ∧ c.datasize < 4294967295 ∧ c.maxsize < 2 ^ 64 ∧ c.listen.isSome

theorem Fit.take {ld : Bytes → StrTold} {c c' : Cfg} (hc : Fit c) {g : Got Key} (h : takeOpt ld c g = .go c') : Fit c' := by
  obtain ⟨h1, h2, h3, h4⟩ := hc
  cases g with
  | bad => cases h
  | opt k v =>
    cases k
    case mode =>
      change (if v = text "user" then Outcome.go { c with mode := some .user } else
        if v = text "seq" then .go { c with mode := some .seq } else
        if v = text "direct" then .go { c with mode := some .seq } else .exit 1) = _ at h
      split at h
      · cases h; exact ⟨h1, h2, h3, h4⟩
      · split at h
        · cases h; exact ⟨h1, h2, h3, h4⟩
        · split at h
          · cases h; exact ⟨h1, h2, h3, h4⟩
          · cases h
    case datasize =>
      dsimp only [takeOpt] at h
      cases hs : humanSize ld v with
      | invalid => rw [hs] at h; cases h
      | undefined => rw [hs] at h; cases h
      | ok n =>
        rw [hs] at h
        dsimp only at h
        split at h
        · cases h
        · split at h
          · cases h
          · cases h
            refine ⟨?_, ?_, h3, h4⟩ <;> dsimp only <;> omega
    case maxsize =>
      cases h
      refine ⟨h1, h2, ?_, h4⟩
      dsimp only
      omega
    case version => cases h
    case help => cases h
    case listen => cases h; exact ⟨h1, h2, h3, rfl⟩
    all_goals (cases h; exact ⟨h1, h2, h3, h4⟩)

theorem Fit.all {ld : Bytes → StrTold} {gs : List (Got Key)} {c c' : Cfg} (hc : Fit c) (h : takeAll ld c gs = .go c') : Fit c' := by
  induction gs generalizing c with
  | nil => cases h; exact hc
  | cons g gs ih =>
    unfold takeAll at h
    cases hg : takeOpt ld c g with
    | exit n => rw [hg] at h; cases h
    | undefined => rw [hg] at h; cases h
    | go d => rw [hg] at h; exact ih (hc.take hg) h

/-- Whatever the words are and however the C library reads numbers: a server that starts has data files of at least 512 KiB and
    less than 4 GiB, has a password if it is protected, and awaits clients somewhere. -/
theorem C76_any {ld : Bytes → StrTold} {argv : List Bytes} {c : Cfg} (h : start ld argv = .go c) :
    524288 ≤ c.datasize ∧ c.datasize < 2 ^ 32 - 1 ∧ (c.protect = true → ∃ p, c.adminpwd = some p) ∧ places c ≠ [] := by
  have hf0 : Fit defaults := ⟨by decide, by decide, by decide, rfl⟩
  unfold start at h
  cases ht : takeAll ld defaults (getopt longOptions argv) with
  | exit n => rw [ht] at h; cases h
  | undefined => rw [ht] at h; cases h
  | go d =>
    rw [ht] at h
    dsimp only at h
    obtain ⟨h1, h2, _, h4⟩ := hf0.all ht
    split at h
    · cases h
    · rename_i hp
      have hpw : d.protect = true → ∃ p, d.adminpwd = some p := by
        intro hd
        cases ha : d.adminpwd with
        | none => exact absurd (by rw [hd, ha]; rfl) hp
        | some p => exact ⟨p, rfl⟩
      obtain ⟨a, ha⟩ := Option.isSome_iff_exists.1 h4
      split at h
      · rename_i hs
        cases h
        refine ⟨h1, by omega, hpw, ?_⟩
        rw [Bool.and_eq_true] at hs
        obtain ⟨p, hp⟩ := Option.isSome_iff_exists.1 hs.1
        unfold places
        simp [hp]
      · cases h
        refine ⟨h1, by omega, hpw, ?_⟩
        unfold places
        simp [ha]

/-- From the command line to the clients: a server told `--protect` and `--admin` lets nobody write to the default namespace who
    did not select it with this password (the last one given), or its digest. -/
theorem C76_protect {ld : Bytes → StrTold} (hld : ReadsNumbers ld) {ws rest : List Bytes} {l : List Ask} (hsay : Says ws l)
    (hr : End rest) (hp : Ask.protect ∈ l) {pwd : Bytes} (hpw : lastAsk Ask.admin? l = some pwd)
    {hash : Bytes → Bytes → Bytes} {cfg : Cfg} (hgo : start ld (ws ++ rest) = .go cfg)
    {n0 n : Node} {tr : List (Event × List (Nat × Msg))} (h0 : Started (cfg.settings hash) n0) (h : NodeRun (cfg.settings hash) n0 tr n)
    {fd : Nat} {c : Client} (hc : getClient n fd = some c) {r : NsRec} (hrs : some r ∈ n.slots) (hrn : r.conf.name = nameDefault)
    (hns : c.ns = some r.uid) (hw : c.writable = true) :
    ∃ l1 ev sent l2 n1, tr = l1 ++ (ev, sent) :: l2 ∧ NodeRun (cfg.settings hash) n0 l1 n1 ∧
      SelectedWith (cfg.settings hash) n1 fd pwd (lastChallenge fd l1) ev sent ∧ ∀ x ∈ l2, Stays fd x.1 := by
  rcases C76_obeyed_partial hld hsay hr with ⟨_, _, h2⟩ | ⟨_, h2⟩
  · rw [h2] at hgo; cases hgo
  · rw [h2] at hgo
    cases hgo
    refine C12_protect_mode (S := (wanted l).settings hash) ?_ ?_ h0 h hc hrs hrn hns hw
    · show (decide (Ask.protect ∈ l) || false) = true
      simp [hp]
    · show (over usual l).adminpwd = some pwd
      rw [admin_over, hpw]

/-! ### examples -/

/-- A reader of whole numbers. -/
def wholes (s : Bytes) : StrTold :=
  ⟨.fin (atollDigits 0 (s.takeWhile (fun b => 48 ≤ b ∧ b ≤ 57))) 0, s.dropWhile (fun b => 48 ≤ b ∧ b ≤ 57), false⟩

theorem wholes_reads : ReadsNumbers wholes := by
  intro n u _
  have hu : ∀ b ∈ unitText u, ¬ (48 ≤ b ∧ b ≤ 57) := by revert u; decide +kernel
  have key : ∀ ds : Bytes, (∀ b ∈ ds, 48 ≤ b ∧ b ≤ 57) →
      (ds ++ unitText u).takeWhile (fun b => 48 ≤ b ∧ b ≤ 57) = ds ∧
      (ds ++ unitText u).dropWhile (fun b => 48 ≤ b ∧ b ≤ 57) = unitText u := by
    intro ds
    induction ds with
    | nil =>
      intro _
      generalize unitText u = x at hu
      cases x with
      | nil => exact ⟨rfl, rfl⟩
      | cons b x =>
        have hb := hu b (by simp)
        constructor
        · rw [List.nil_append, List.takeWhile_cons_of_neg (by simpa using hb)]
        · rw [List.nil_append, List.dropWhile_cons_of_neg (by simpa using hb)]
    | cons d ds ih =>
      intro h
      have hd := h d (by simp)
      have := ih (fun b hb => h b (List.mem_cons_of_mem _ hb))
      constructor
      · rw [List.cons_append, List.takeWhile_cons_of_pos (by simpa using hd), this.1]
      · rw [List.cons_append, List.dropWhile_cons_of_pos (by simpa using hd), this.2]
  obtain ⟨h1, h2⟩ := key _ (Resp.digits_range n)
  unfold wholes
  rw [h1, h2, Resp.atollDigits_digits]

/-- `--datas=1G -mode seq x --protect --admin a --admin=b -- --secure` -/
def exWords : List Bytes :=
  [text "--datas=1G", text "-mode", text "seq", text "x", text "--protect", text "--admin", text "a", text "--admin=b"]

def exAsks : List Ask := [.datasize 1 3, .mode .seq, .protect, .admin (text "a"), .admin (text "b")]

theorem C76_says_example : Says exWords exAsks := by
  have e : exWords = spell true true (text "datas") (Ask.datasize 1 3).value ++
      (spell false false (text "mode") (Ask.mode .seq).value ++ (text "x" :: (spell true false (text "protect") Ask.protect.value ++
      (spell true false (text "admin") (Ask.admin (text "a")).value ++
      (spell true true (text "admin") (Ask.admin (text "b")).value ++ []))))) := by decide +kernel
  rw [e]
  refine .ask true true (used := text "datas") (a := .datasize 1 3) (.inr (by decide +kernel)) (by unfold Ask.Ok; decide) ?_
  refine .ask false false (used := text "mode") (a := .mode .seq) (.inl rfl) trivial ?_
  refine .plain (.inl (by decide)) ?_
  refine .ask true false (used := text "protect") (a := .protect) (.inl rfl) trivial ?_
  refine .ask true false (used := text "admin") (a := .admin (text "a")) (.inl rfl) trivial ?_
  exact .ask true true (used := text "admin") (a := .admin (text "b")) (.inl rfl) trivial .nil

theorem C76_example : ∃ c, start wholes (exWords ++ [text "--", text "--secure"]) = .go c ∧ c.datasize = 2 ^ 30 ∧ c.mode = some .seq ∧
    c.protect = true ∧ c.adminpwd = some (text "b") ∧ c.secure = false ∧ c.port = text "9900" ∧
    places c = [.tcp (text "::") (text "9900")] := by
  refine ⟨wanted exAsks, ?_, by decide +kernel, by decide +kernel, by decide +kernel, by decide +kernel, by decide +kernel,
    by decide +kernel, by decide +kernel⟩
  rcases C76_obeyed_partial wholes_reads C76_says_example (rest := [text "--", text "--secure"])
      (by unfold End; decide +kernel) with ⟨_, h, _⟩ | ⟨_, h⟩
  · exact absurd (by decide +kernel) (h (text "b"))
  · exact h

/-- `--dat` could be two options, `--colour` none, `--sync=1` has a value too many, `--datasize 100k` is too small. -/
theorem C76_wrong_example : Wrong wholes [text "--dat=1G"] ∧ Wrong wholes [text "-colour"] ∧ Wrong wholes [text "--sync=1"] ∧
    Wrong wholes [text "--datasize", text "100k"] := by
  refine ⟨?_, ?_, ?_, ?_⟩
  · exact .name (used := text "dat") (value := some (text "1G")) true (by unfold NoName; decide +kernel) (by decide) (by decide) (by decide)
  · exact .name (used := text "colour") (value := none) false (by unfold NoName; decide +kernel) (by decide) (by decide) (by decide)
  · exact .valued (used := text "sync") (name := text "sync") (v := text "1") (ws := []) true (by decide +kernel) (.inl rfl)
  · have : Resp.digits 100 ++ unitText 1 = text "100k" := by decide +kernel
    have h := Wrong.datasize (ld := wholes) (used := text "datasize") (n := 100) (u := 1) (ws := []) true false (.inl rfl) (by decide)
      (by unfold Ask.Ok; decide)
    rw [this] at h
    exact h

/-! ### what is not refused -/

/-- What a person can see of an outcome in the refutations. -/
def Outcome.sees (f : Cfg → Bool) : Outcome → Bool
  | .go c => f c
  | _ => false

/-- A word that is no option is passed over: `--admin pw protect` starts a server that anybody may write to. -/
theorem C76_word_refuted (ld : Bytes → StrTold) :
    (start ld [text "--admin", text "pw", text "protect"]).sees (fun c => !c.protect && c.adminpwd == some (text "pw")) = true := by
  have h : getopt longOptions [text "--admin", text "pw", text "protect"] = [.opt .admin (text "pw")] := by decide +kernel
  unfold start
  rw [h]
  simp [takeAll, takeOpt, Outcome.sees, defaults]

/-- An option that lacks its value takes the next option for it: the directory is named `--protect`, and there is no protection. -/
theorem C76_swallow_refuted (ld : Bytes → StrTold) :
    (start ld [text "--admin", text "pw", text "--data", text "--protect"]).sees
      (fun c => !c.protect && c.datapath == text "--protect") = true := by
  have h : getopt longOptions [text "--admin", text "pw", text "--data", text "--protect"] =
      [.opt .admin (text "pw"), .opt .data (text "--protect")] := by decide +kernel
  unfold start
  rw [h]
  simp [takeAll, takeOpt, Outcome.sees, defaults]

/-- The two sizes are not read alike: `--datasize 1G` is a gigabyte, `--maxsize 10G` ten bytes, and `--maxsize lots` no limit at all;
    a negative one is almost 2^64. -/
theorem C76_maxsize_refuted :
    (start wholes [text "--datasize", text "1G", text "--maxsize", text "10G"]).sees (fun c => c.datasize == 2 ^ 30 && c.maxsize == 10) = true ∧
    (start wholes [text "--maxsize", text "lots"]).sees (fun c => c.maxsize == 0) = true ∧
    (start wholes [text "--maxsize", text "-5"]).sees (fun c => c.maxsize == 2 ^ 64 - 5) = true := by decide +kernel

/-- What is no number, or too large a one, is converted to an integer unseen: `--datasize nan` and `--datasize 1e30` are undefined. -/
theorem C76_datasize_refuted {ld : Bytes → StrTold} (h1 : ld (text "nan") = ⟨.nan, [], false⟩)
    (h2 : ld (text "1e30") = ⟨.fin (10 ^ 30) 0, [], false⟩) :
    start ld [text "--datasize", text "nan"] = .undefined ∧ start ld [text "--datasize", text "1e30"] = .undefined := by
  have e1 : humanSize ld (text "nan") = .undefined := by unfold humanSize; rw [h1]; rfl
  have e2 : humanSize ld (text "1e30") = .undefined := by
    unfold humanSize
    rw [h2]
    dsimp only
    rw [if_neg (by decide +kernel), if_neg (by decide)]
    have : suffixOf [] = some 0 := rfl
    rw [this]
    dsimp only
    rw [if_neg (by decide +kernel)]
  have g : ∀ v, getopt longOptions [text "--datasize", v] = [.opt .datasize v] := by
    intro v
    have := getopt_ask true false (used := text "datasize") (a := .datasize 0 0) (.inl rfl) []
    have hs := getopt_spell (t := longOptions) true false (used := text "datasize") (o := ⟨text "datasize", true, .datasize⟩)
      ⟨by decide, by decide, by decide⟩ (findOpt_exact distinct (o := ⟨text "datasize", true, .datasize⟩) (by simp [longOptions]))
      (value := some v) rfl []
    exact hs
  unfold start
  rw [g, g]
  simp only [takeAll, takeOpt, e1, e2, and_self]

/-- What follows the unit is passed over: `--datasize 1Gbit` is a gigabyte. -/
theorem C76_unit_refuted : (start wholes [text "--datasize", text "1Gbit"]).sees (fun c => c.datasize == 2 ^ 30) = true := by decide +kernel

/-- A server that gives up because its hook says that it is not ready ends with the status of success. -/
theorem C76_status_refuted (ld : Bytes → StrTold) :
    fate true 1 (start ld [text "--hook", text "/bin/false"]) = .exit 0 := by
  have h : getopt longOptions [text "--hook", text "/bin/false"] = [.opt .hook (text "/bin/false")] := by decide +kernel
  unfold start
  rw [h]
  rfl

/-- A size need not be a whole number: whatever text the C library reads as the number `m / 2^k` followed by a unit, files have as many
    whole bytes as it says, if that is within the range. -/
theorem C76_fraction {ld : Bytes → StrTold} {v : Bytes} {m k : Nat} {u : Fin 5} (hv : ld v = ⟨.fin m k, unitText u, false⟩)
    (hne : unitText u ≠ v) {n : Nat} (h1 : n * 2 ^ k ≤ m * 1024 ^ u.val) (h2 : m * 1024 ^ u.val < (n + 1) * 2 ^ k)
    (hlo : 524288 ≤ n) (hhi : n < 4294967295) :
    (start ld [text "--datasize", v]).sees (fun c => c.datasize == n) = true := by
  have hn : m * 1024 ^ u.val / 2 ^ k = n := by
    rw [Nat.div_eq_iff (Nat.two_pow_pos k)]
    have : (n + 1) * 2 ^ k = n * 2 ^ k + 2 ^ k := by rw [Nat.add_mul, Nat.one_mul]
    omega
  have hp : 2 ^ (10 * u.val) = 1024 ^ u.val := by rw [Nat.pow_mul]
  have e : humanSize ld v = .ok n := by
    unfold humanSize
    rw [hv]
    dsimp only
    have hb : (unitText u == v) = false := by rw [beq_eq_false_iff_ne]; exact hne
    have hm : ¬ ((m : Int) < 0) := by omega
    rw [hb, suffixOf_unit, if_neg (by decide), if_neg hm]
    dsimp only
    rw [Int.toNat_natCast, hp, hn, if_pos (by omega)]
  have g : getopt longOptions [text "--datasize", v] = [.opt .datasize v] :=
    getopt_spell (t := longOptions) true false (used := text "datasize") (o := ⟨text "datasize", true, .datasize⟩)
      ⟨by decide, by decide, by decide⟩ (findOpt_exact distinct (o := ⟨text "datasize", true, .datasize⟩) (by simp [longOptions]))
      (value := some v) rfl []
  have h3 : ¬ n ≥ 0xffffffff := by omega
  have h4 : ¬ n < 512 * 1024 := by omega
  unfold start
  rw [g]
  simp [takeAll, takeOpt, e, h3, h4, Outcome.sees, defaults]

/-- A concrete case: a C library that reads `1.5M` as 3 / 2 and `M`. -/
theorem C76_fraction_example :
    (start (fun v => if v = text "1.5M" then ⟨.fin 3 1, text "M", false⟩ else ⟨.nan, v, false⟩) [text "--datasize", text "1.5M"]).sees
      (fun c => c.datasize == 1572864) = true :=
  C76_fraction (m := 3) (k := 1) (u := 2) rfl (by decide +kernel) (by decide) (by decide) (by decide) (by decide)

end Zdb.Options
