import Verif.Model.World

/-!
# A world that stands still

The world in which every question a connection asked has the answer it got when the connection asked it.
-/

namespace Sink.Spec

/-- `W0` does not change and answers every question asked between `t0` and `tr` as `W` did when it was asked: the contents of files, the mail
exchangers of domains, the names of addresses.  The addresses of names are the same in both. -/
structure Snapshot (W : World) (t0 tr : Trace) (W0 : World) : Prop where
  static : W0.Static
  lib : W0.lib = W.lib
  ipStr : W0.ipStr = W.ipStr
  lookupIP : ∀ n, W0.lookupIP 0 n = W.lookupIP 0 n
  files : ∀ f u, t0 <:+ u → (.openFile f :: u) <:+ tr → W0.files 0 f = W.files u.length f
  lookupMX : ∀ n u, t0 <:+ u → (.lookupMX n :: u) <:+ tr → W0.lookupMX 0 n = W.lookupMX u.length n
  lookupAddr : ∀ a u, t0 <:+ u → (.lookupAddr a :: u) <:+ tr → W0.lookupAddr 0 a = W.lookupAddr u.length a

end Sink.Spec
