/-
The bytes of the messages sent to clients: zdbd/redis.c:338-375, 960-1027 and the senders of zdbd/commands_*.c.
-/
import Verif.Model.Node
namespace Zdb.Wire

/-- The end of a line. -/
def crlf : Bytes := [13, 10]

/-- The characters of a literal. -/
def chars (s : String) : Bytes := s.toList.map (fun c => UInt8.ofNat c.toNat)

/-- `printf("%ld")`. -/
def decInt (i : Int) : Bytes := if i < 0 then 45 :: decBytes i.natAbs else decBytes i.natAbs

/-- `redis_bulk`, zdbd/redis.c:338-375; the same text is made by hand in zdbd/commands_scan.c:119-141, 360-366, 425-440,
    zdbd/commands_history.c:73-93, zdbd/commands_namespace.c:261, zdbd/commands_system.c:38, 317-330. -/
def encBulk (b : Bytes) : Bytes := 36 :: (decBytes b.length ++ crlf ++ b ++ crlf)

/-- The header of an array, for example zdbd/commands_get.c:101, zdbd/commands_namespace.c:254, zdbd/commands_system.c:217. -/
def encHead (n : Nat) : Bytes := 42 :: (decBytes n ++ crlf)

/-- The bytes of a reply.  `redis_hardsend` (zdbd/redis.h:15) sends a literal and the end of a line; integers are printed
    with `%d`, `%u`, `%lu` or `%ld` (zdbd/commands_dataset.c:48, 98, 223, 268, zdbd/commands_namespace.c:603,
    zdbd/commands_scan.c:142-145, zdbd/commands_system.c:221, 321-324); arrays are their header and their elements
    (zdbd/commands_get.c:101-108, zdbd/commands_scan.c:119-147, 425-441, zdbd/commands_history.c:72-93,
    zdbd/commands_system.c:38, 314-334).  Nothing is sent by a process that crashes. -/
def encReply : Reply → Bytes
  | .nil => 36 :: 45 :: 49 :: crlf
  | .simple s => 43 :: (chars s ++ crlf)
  | .err s => 45 :: (chars s ++ crlf)
  | .int i => 58 :: (decInt i ++ crlf)
  | .bulk b => encBulk b
  | .arr l => encHead l.length ++ encList l
  | .crash => []
where
  /-- the elements of an array, one after the other -/
  encList : List Reply → Bytes
    | [] => []
    | r :: l => encReply r ++ encList l

/-- The texts which are not modelled elsewhere: of INFO and NSINFO, and what is sent to a mirror. -/
structure Texts where
  server : Bytes
  nsinfo : Info → Bytes
  mirror : Bytes

/-- The bytes of a message.  NSLIST: zdbd/commands_namespace.c:247-266; HOOKS: zdbd/commands_system.c:137, 177; INFO:
    zdbd/commands_system.c:112-119; NSINFO: zdbd/commands_namespace.c:370-378; challenge: zdbd/commands_auth.c:34-37; the
    notification of WAIT: zdbd/redis.c:1172-1173. -/
def encMsg (T : Texts) : Msg → Bytes
  | .reply r => encReply r
  | .stream n l => encHead n ++ encReply.encList l
  | .nsinfo i => encBulk (T.nsinfo i)
  | .server => encBulk T.server
  | .challenge nonce => 43 :: (nonce ++ crlf)
  | .notice cmd => 43 :: (cmd ++ crlf)
  | .mirrored => T.mirror

/-- `redis_mirror_client`, zdbd/redis.c:960-1027: time, name of the namespace, owner, and the arguments of the request. -/
def mirrorText (now : Nat) (name : Bytes) (owner : Nat) (argv : List Bytes) : Bytes :=
  encHead (argv.length + 3) ++ (58 :: (decBytes now ++ crlf)) ++ encBulk name ++ (58 :: (decBytes owner ++ crlf)) ++
    argv.flatMap encBulk

end Zdb.Wire
