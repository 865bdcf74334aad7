import Verif.Model.ProxyUpload
import Verif.Spec.Proxy
/-!
# What a proxy sends upstream as the content of a request (C89)
-/
namespace Pillow.Spec
open Pillow

/-- The request `r` is being forwarded, and only the pipe answers it (the rules are those of `Piping`). `late`: the upstream reply may go on reading after the pipe was torn down, until
the event loop has deleted it. -/
inductive Forwarding (late : Bool) (u : Upstream) (a : List Ev) (r : ReqView) : Uploading → Prop where
  | start (s : Conf) : Reach Proper s → s.inEnv = true → s.c.fault = none → s.c.log = a → WithHandler a r → NoAnswer s.stack → Forwarding late u a r { p := { s := s } }
  | step (x x' : Uploading) (l : ULabel) : Forwarding late u a r x →
      (∀ m, l = .pipe (.conn m) → Proper x.p.s m ∧ (Open a x.p.s.c.log → ∀ c, m = .call c → ¬ Writes c)) →
      (∀ n, l = .upload n → late = true ∨ x.p.broken = false) → x.step u l = some x' → Forwarding late u a r x'

end Pillow.Spec
