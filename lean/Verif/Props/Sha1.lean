/-
C57: the digest expected from a client is the SHA-1 of the standard.
-/
import Verif.Lemmas.Sha1Stream
import Verif.Props.Auth
namespace Zdb
open Fips

/-- C57: `zdb_sha1` gives the digest of the standard for every text the parameter `len` (32 bits) can tell,
    whatever the uninitialised buffer contains. -/
theorem C57_zdb_sha1_is_sha1 {junk s : Bytes} (hj : junk.length = 64) (_hs : s.length < 2 ^ 32) :
    Sha1.zdbSha1 junk s = some (sha1 s) := by
  have e : s.foldl (fun x b => Sha1.update x [b]) (Sha1.init junk) = (s.map fun b => [b]).foldl Sha1.update (Sha1.init junk) := by
    rw [List.foldl_map]
  have h := Sha1.updates_rep (s.map fun b => [b]) (Sha1.init_rep hj)
  have hf : (s.map fun b => [b]).flatten = s := by
    induction s with
    | nil => rfl
    | cons b s ih => simpa using ih (by simp only [List.length_cons] at _hs; omega) (by rw [List.foldl_map]) (Sha1.updates_rep _ (Sha1.init_rep hj))
  rw [hf, List.nil_append] at h
  unfold Sha1.zdbSha1
  rw [e]
  exact Sha1.final_eq h

/-- C57: the same if the text is given in any pieces. -/
theorem C57_pieces {junk : Bytes} (hj : junk.length = 64) (l : List Bytes) :
    Sha1.final (l.foldl Sha1.update (Sha1.init junk)) = some (sha1 l.flatten) :=
  Sha1.final_eq (by simpa using Sha1.updates_rep l (Sha1.init_rep hj))

theorem hex2_eq (b : UInt8) : Sha1.hex2 b = hexadecimal [b] := by
  have h : ∀ b : Fin 256, Sha1.hex2 (UInt8.ofNat b.val) = hexadecimal [UInt8.ofNat b.val] := by decide +kernel
  have := h ⟨b.toNat, UInt8.toNat_lt b⟩
  simpa using this

theorem hexadecimal_eq (d : Bytes) : d.flatMap Sha1.hex2 = hexadecimal d := by
  induction d with
  | nil => rfl
  | cons b d ih =>
    rw [List.flatMap_cons, ih, hex2_eq]
    simp [hexadecimal]

/-- C57: what is expected from a client is the hexadecimal digest of the challenge, a colon and the password. -/
theorem C57_password {junk salt pwd : Bytes} (hj : junk.length = 64) (hs : (0 : UInt8) ∉ salt) (hp : (0 : UInt8) ∉ pwd)
    (hl : salt.length + pwd.length < 2 ^ 31) :
    Sha1.hashPassword junk salt pwd = some (hexadecimal (sha1 (salt ++ str ":" ++ pwd))) := by
  unfold Sha1.hashPassword
  rw [cstr_id hs, cstr_id hp, C57_zdb_sha1_is_sha1 hj (by simp; omega), Option.map_some, hexadecimal_eq]
  rfl

/-- The digests of the process are those of the code. -/
def RealHash (S : Settings) : Prop :=
  ∀ junk salt pwd, junk.length = 64 → Sha1.hashPassword junk salt pwd = some (S.hash salt pwd)

theorem bigEndian_length (k n : Nat) : (bigEndian k n).length = k := by
  unfold bigEndian; simp

theorem sha1_length (m : Bytes) : (sha1 m).length = 20 := by
  simp [sha1, bigEndian_length]

theorem hexadecimal_length (m : Bytes) : (hexadecimal m).length = 2 * m.length := by
  induction m with
  | nil => rfl
  | cons b m ih =>
    have : hexadecimal (b :: m) = hexadecimal [b] ++ hexadecimal m := by simp [hexadecimal]
    rw [this, List.length_append, ih]
    simp [hexadecimal]; omega

theorem hexadecimal_nonzero (m : Bytes) : (0 : UInt8) ∉ hexadecimal m := by
  induction m with
  | nil => simp [hexadecimal]
  | cons b m ih =>
    have e : hexadecimal (b :: m) = hexadecimal [b] ++ hexadecimal m := by simp [hexadecimal]
    have h : ∀ b : Fin 256, (0 : UInt8) ∉ hexadecimal [UInt8.ofNat b.val] := by decide +kernel
    have := h ⟨b.toNat, UInt8.toNat_lt b⟩
    rw [e, List.mem_append]
    rintro (h | h)
    · exact this (by simpa using h)
    · exact ih h

theorem RealHash.eq {S : Settings} (h : RealHash S) {salt pwd : Bytes} (hs : (0 : UInt8) ∉ salt) (hp : (0 : UInt8) ∉ pwd)
    (hl : salt.length + pwd.length < 2 ^ 31) : S.hash salt pwd = hexadecimal (sha1 (salt ++ str ":" ++ pwd)) := by
  have h1 := h (List.replicate 64 0) salt pwd (by simp)
  rw [C57_password (by simp) hs hp hl] at h1
  injection h1 with h1
  exact h1.symm

/-- C57: a client that holds a challenge becomes administrator with the word SECURE and the hexadecimal SHA-1 of
    `challenge:password`. -/
theorem C57_digest_accepted {S : Settings} (hS : RealHash S) {n n' : Node} {fd : Nat} {e : Env} {argv : List Bytes}
    {sent : List (Nat × Msg)} {st : Status} (hs : request S n fd e argv = .ok n' sent st) {pwd w nonce : Bytes} {c : Client}
    (hc : getClient n fd = some c) (hn : c.nonce = some nonce) (hpw : S.adminpwd = some pwd) (hw : w.map lower = (str "secure"))
    (hn0 : (0 : UInt8) ∉ nonce) (hp0 : (0 : UInt8) ∉ pwd) (hl : nonce.length + pwd.length < 2 ^ 31)
    (hp : Asks n fd e argv .auth [w, hexadecimal (sha1 (nonce ++ str ":" ++ pwd))]) :
    GotOk fd sent ∧ ∃ c', getClient n' fd = some c' ∧ c'.admin = true := by
  have he := hS.eq hn0 hp0 hl
  rw [← he] at hp
  refine C14_right_digest_accepted hs hc hn hp hpw hw ?_ ?_
  · rw [he, hexadecimal_length, sha1_length]
  · rw [he]; exact hexadecimal_nonzero _

/-- C57: a client becomes administrator by AUTH with two arguments only if the second one, cut at its first NUL, is the
    hexadecimal SHA-1 of the last challenge sent to it, a colon and the password. -/
theorem C57_digest_needed {S : Settings} (hS : RealHash S) {n0 n n' : Node} {l : List (Event × List (Nat × Msg))}
    (h0 : Started S n0) (h : NodeRun S n0 l n) {e : Env} {argv : List Bytes} {sent : List (Nat × Msg)} {st : Status} {fd : Nat}
    (hs : nodeStep S n (.request fd e argv) = .ok n' sent st) {c c' : Client} (hc : getClient n fd = some c)
    (ha : c.admin = false) (hc' : getClient n' fd = some c') (ha' : c'.admin = true) {w d : Bytes}
    (hask : Asks n fd e argv .auth [w, d]) (hsafe : ∀ x pwd, lastChallenge fd l = some x → S.adminpwd = some pwd →
      (0 : UInt8) ∉ x ∧ (0 : UInt8) ∉ pwd ∧ x.length + pwd.length < 2 ^ 31) :
    ∃ x pwd, lastChallenge fd l = some x ∧ S.adminpwd = some pwd ∧ cstr d = hexadecimal (sha1 (x ++ str ":" ++ pwd)) := by
  obtain ⟨e', argv', args, pwd, he, hask', hpwd, -, hpf⟩ := C14_admin_only_with_secret_partial h0 h hs hc (by trivial) ha hc' ha'
  injection he with _ he he'
  subst he; subst he'
  obtain ⟨p, hp, -, hargs⟩ := hask
  obtain ⟨p', hp', -, hargs'⟩ := hask'
  rw [hp] at hp'
  injection hp' with hp'
  subst hp'
  rw [hargs] at hargs'
  subst hargs'
  generalize hg : List.map cstr [w, d] = m at hpf
  cases hpf with
  | plain => simp at hg
  | digest w' x hx =>
    simp only [List.map_cons, List.map_nil, List.cons.injEq, and_true] at hg
    obtain ⟨s1, s2, s3⟩ := hsafe x pwd hx hpwd
    exact ⟨x, pwd, hx, hpwd, by rw [hg.2, hS.eq s1 s2 s3]⟩

theorem hex2_inj (a b : UInt8) (h : Sha1.hex2 a = Sha1.hex2 b) : a = b := by
  have key : ∀ a : Fin 256, (Sha1.hex2 (UInt8.ofNat a.val)).map (fun c => if c < 58 then c.toNat - 48 else c.toNat - 87) = [a.val / 16, a.val % 16] := by
    decide +kernel
  have ha := key ⟨a.toNat, UInt8.toNat_lt a⟩
  have hb := key ⟨b.toNat, UInt8.toNat_lt b⟩
  simp only [UInt8.ofNat_toNat] at ha hb
  rw [h, hb] at ha
  simp only [List.cons.injEq, and_true] at ha
  apply UInt8.toNat_inj.1
  omega

/-- C57: a challenge of 8 random bytes is a text of 16 characters without NUL; other random bytes give another text. -/
theorem C57_challenge {x : Bytes} (hx : x.length = 8) :
    (Sha1.challenge x).length = 16 ∧ (0 : UInt8) ∉ Sha1.challenge x ∧ ∀ y, Sha1.challenge y = Sha1.challenge x → y = x := by
  unfold Sha1.challenge
  refine ⟨by rw [hexadecimal_eq, hexadecimal_length, hx], by rw [hexadecimal_eq]; exact hexadecimal_nonzero _, ?_⟩
  clear hx
  intro y
  induction y generalizing x with
  | nil =>
    intro h
    cases x with
    | nil => rfl
    | cons a x => simp [Sha1.hex2] at h
  | cons b y ih =>
    intro h
    cases x with
    | nil => simp [Sha1.hex2] at h
    | cons a x =>
      rw [List.flatMap_cons, List.flatMap_cons] at h
      obtain ⟨h1, h2⟩ := List.append_inj h rfl
      rw [hex2_inj _ _ h1, ih h2]

/-- The digest of `abc` given in the standard. -/
theorem C57_abc : hexadecimal (sha1 (str "abc")) = str "a9993e364706816aba3e25717850c26c9cd0d89d" := by decide +kernel

/-- The example process with the digests of the code. -/
def exSha : Settings := { exS with hash := fun salt pwd => hexadecimal (sha1 (cstr salt ++ [58] ++ cstr pwd)) }

theorem exSha_real : RealHash exSha := by
  intro junk salt pwd hj
  have := C57_pieces hj ((cstr salt ++ [58] ++ cstr pwd).map fun b => [b])
  have hf : ∀ s : Bytes, (s.map fun b => [b]).flatten = s := by
    intro s
    induction s with
    | nil => rfl
    | cons b s ih => simpa using ih
  rw [List.foldl_map, hf] at this
  unfold Sha1.hashPassword Sha1.zdbSha1
  rw [this, Option.map_some, hexadecimal_eq]
  rfl

/-- The last thing sent is `+OK`. -/
def lastOk (l : List (List (Nat × Msg))) : Bool :=
  match l.getLast? with
  | some [(_, .reply (.simple _))] => true
  | _ => false

/-- A client of this process asks for a challenge, is given `nG`, and answers with the digest of `nG:pw`. -/
theorem C57_example :
    (exE 6).nonce = str "nG" ∧ lastOk (ranSent exSha (exEvents ++
      [.request 6 (exE 6) [str "AUTH", str "SECURE", str "CHALLENGE"],
       .request 6 (exE 7) [str "AUTH", str "SECURE", str "c4b8e59cd04a22e816628eaa3c233b7d8f2051ac"]])) = true ∧
    lastOk (ranSent exSha (exEvents ++
      [.request 6 (exE 6) [str "AUTH", str "SECURE", str "CHALLENGE"],
       .request 6 (exE 7) [str "AUTH", str "SECURE", str "c4b8e59cd04a22e816628eaa3c233b7d8f2051ad"]])) = false := by
  decide +kernel

end Zdb
