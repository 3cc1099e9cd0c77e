import Verif.Model.World

/-!
# Two worlds with the same answers
-/

namespace Sink.Spec

/-- `W0` answers the questions of `t` as `W` did when they were asked.  The addresses of names, the texts, and what is not asked from
outside are the same. -/
structure Echo (W W0 : World) (t : Trace) : Prop where
  lib : W0.lib = W.lib
  ipStr : W0.ipStr = W.ipStr
  order : W0.mapOrder = W.mapOrder
  ip : W0.lookupIP = W.lookupIP
  txt : W0.lookupTXT = W.lookupTXT
  files : ∀ f u, (.openFile f :: u) <:+ t → W0.files u.length f = W.files u.length f
  mx : ∀ n u, (.lookupMX n :: u) <:+ t → W0.lookupMX u.length n = W.lookupMX u.length n
  addr : ∀ a u, (.lookupAddr a :: u) <:+ t → W0.lookupAddr u.length a = W.lookupAddr u.length a

end Sink.Spec
