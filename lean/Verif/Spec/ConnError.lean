import Verif.Spec.Conncfg

/-!
# What is wrong with a connection parameter file, and how that is said
-/

namespace Sink.Spec

/-- Why the certificates of a line cannot be had: there are not as many keys as certificates, or the first pair that cannot be loaded,
which is named if it is not the only one. -/
inductive CertTrouble (P : PairOracle) (cert key : Str) : Str → Prop
  | count {cl kl} : Commas cert cl → Commas key kl → cl.length ≠ kl.length → CertTrouble P cert key b!"Different number of certificates and keys"
  | only {e} : Commas cert [cert] → Commas key [key] → P cert key = some e → CertTrouble P cert key e
  | pair {good : List TlsCert} {c k : Str} {cs ks : List Str} {e} : Commas cert (good.map TlsCert.cert ++ c :: cs) →
      Commas key (good.map TlsCert.key ++ k :: ks) → cs.length = ks.length → (good ≠ [] ∨ cs ≠ []) → (∀ x ∈ good, P x.cert x.key = none) →
      P c k = some e → CertTrouble P cert key (b!"while loading " ++ c ++ b!" & " ++ k ++ b!": " ++ e)

/-- What is said about a line with the words `ws` after its first one, the line having number `n`. -/
inductive LineTrouble (P : PairOracle) (n : Nat) (ws : List Str) : Str → Prop
  | many : 3 < ws.length → LineTrouble P n ws (b!"too many fields in line " ++ decDigits n)
  | noValue {good s more} : ws.length ≤ 3 → ws = good ++ s :: more → (∀ x ∈ good, Known x) → (∀ k v, ¬ Gives s k v) →
      LineTrouble P n ws (b!"field has no = in line " ++ decDigits n)
  | noSuchKey {good s more k v} : ws.length ≤ 3 → ws = good ++ s :: more → (∀ x ∈ good, Known x) → Gives s k v → c!"=" ∉ k →
      k ≠ b!"hostname" → k ≠ b!"cert" → k ≠ b!"key" → LineTrouble P n ws (b!"unrecognized key '" ++ k ++ b!"' in line " ++ decDigits n)
  | noKey {cert} : ws.length ≤ 3 → (∀ x ∈ ws, Known x) → Value ws b!"cert" cert → cert ≠ [] → Value ws b!"key" [] →
      LineTrouble P n ws (b!"certificate without key on line " ++ decDigits n)
  | noCert {key} : ws.length ≤ 3 → (∀ x ∈ ws, Known x) → Value ws b!"cert" [] → Value ws b!"key" key → key ≠ [] →
      LineTrouble P n ws (b!"key without certificate on line " ++ decDigits n)
  | certs {cert key e} : ws.length ≤ 3 → (∀ x ∈ ws, Known x) → Value ws b!"cert" cert → cert ≠ [] → Value ws b!"key" key → key ≠ [] →
      CertTrouble P cert key e → LineTrouble P n ws (b!"error loading TLS cert(s) and key(s) from line " ++ decDigits n ++ b!": " ++ e)

/-- What is wrong with a file of these lines: it is said about the first line that is wrong, which is number `good.length + 1`. -/
def FileTrouble (P : PairOracle) (lines : List Str) (e : Str) : Prop :=
  ∃ good l more ds w ws, lines = good ++ l :: more ∧ ConnFile P good ds ∧ Words l (w :: ws) ∧ w.head? ≠ some c!"#" ∧
    LineTrouble P (good.length + 1) ws e

end Sink.Spec
