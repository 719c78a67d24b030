/-
What enabling and disabling pnumpy should do, in terms of the Python calls made so far.
-/
namespace Pnumpy.Spec

/-- Python calls that concern hooking: `initialize()` (at import), `atop_enable()`/`atop_disable()`,
`thread_enable()`/`thread_disable()`, `hook_enable()`/`hook_disable()`, anything else. `pn.enable()` is
`atopEnable` then `threadEnable`, `pn.disable()` is `atopDisable` then `threadDisable` (src/pnumpy/cpu.py). -/
inductive Call where
  | doInit
  | atopEnable | atopDisable
  | threadEnable | threadDisable
  | hookEnable | hookDisable
  | other
deriving DecidableEq, Repr

/-- pnumpy is enabled: the last call among enable/disable was enable (initially enabled).  Histories
list the newest call first. -/
def enabledNow : List Call → Bool
  | [] => true
  | .atopEnable :: _ => true
  | .atopDisable :: _ => false
  | _ :: older => enabledNow older

def threadsNow : List Call → Bool
  | [] => true
  | .threadEnable :: _ => true
  | .threadDisable :: _ => false
  | _ :: older => threadsNow older

/-- indexing goes through pnumpy -/
def getitemNow : List Call → Bool
  | [] => false
  | .hookEnable :: _ => true
  | .hookDisable :: _ => false
  | _ :: older => getitemNow older

end Pnumpy.Spec
