/-
What a stop of the server puts on the disk: SIGINT, SIGTERM (zdbd/zdbd.c:183-226) and STOP.
-/
import Verif.Model.Sync
namespace Zdb

/-- `namespaces_emergency` for one namespace (libzdb/namespace.c:719-737): `index_emergency` (libzdb/index.c:776-783) and
    `data_emergency` (libzdb/data.c:720-725) call `fsync` on the two open files.  It is called by the handler of SIGINT and
    SIGTERM (zdbd/zdbd.c:209-221), while no command is being executed, and by `namespaces_destroy` after STOP
    (libzdb/namespace.c:522-523).  The namespace is loaded, so the index accepts. -/
def Disk.stopped (D : Disk) (s : Store) : Disk :=
  { D with i := D.i.modify s.indexid DFile.sync, d := D.d.modify s.dataid DFile.sync }

end Zdb
