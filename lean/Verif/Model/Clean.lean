/-
What FLUSH unlinks: `dir_clean_cb` of libzdb/filesystem.c.
-/
import Verif.Model.Node
namespace Zdb

/-- `dir_clean_cb`, libzdb/filesystem.c:73-91, on a path given by `nftw` (which holds no NUL): whether `unlink` is called.  `none`: the
    bytes before the path are read, which is undefined (`length - 14` and `length - 15` are not checked).  `strncmp` compares no
    more bytes than the word has. -/
def cleanCb (p : Bytes) : Option Bool :=
  if p.length < 14 then none
  else
    let data := wordZdbData.isPrefixOf (p.drop (p.length - 14))
    if p.length < 15 then none
    else some (data || wordZdbIndex.isPrefixOf (p.drop (p.length - 15)))

/-- The path of an index file in the directory `p` of a namespace (libzdb/index.c:162, 181). -/
def indexFileName (p : Bytes) (n : Nat) : Bytes := p ++ 47 :: 105 :: decBytes n

/-- The path of a data file (libzdb/data.c:135, 280). -/
def dataFileName (p : Bytes) (n : Nat) : Bytes := p ++ 47 :: 100 :: decBytes n

/-- The path of the descriptor (libzdb/namespace.c:106): `zdb-namespace`. -/
def descFileName (p : Bytes) : Bytes := p ++ [47, 122, 100, 98, 45, 110, 97, 109, 101, 115, 112, 97, 99, 101]

end Zdb
