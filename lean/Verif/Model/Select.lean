import Verif.Model.PropNode
import Verif.Model.ContainerTools
import Verif.Model.Glob

/-!
Children of a `prop_node` selected by key or by pattern (/repo/xo/container/prop_node.h:230-236).
-/
namespace Xo
namespace Select
open PropNode (Kids)

/-- `select( key )` (prop_node.h:231-232) : what a loop over the view visits. -/
def select (n : PropNode) (key : Str) (fuel : Nat) : Option (Res Kids) :=
  (Cont.ViewIf.ofCont n.kids fun p => decide (p.1 = key)).visit fuel

/-- `select_pattern( pattern )` (prop_node.h:235-236) : what a loop over the view visits. -/
def selectPattern (n : PropNode) (pattern : Str) (fuel : Nat) : Option (Res Kids) :=
  (Cont.ViewIf.ofCont n.kids fun p => Glob.patternMatch p.1 pattern).visit fuel

end Select
end Xo
