import sys; sys.path.insert(0,'/verif/tools')
from pratt import cert
out={}
q=2**252+27742317777372353535851937790883648493; p=2**255-19
for n in (q,p): cert(n,out)
s='''import Verif.Lemmas.Pratt

/-!
The two primes of ed25519: the field modulus `2^255 - 19` and the group order
`2^252 + 27742317777372353535851937790883648493` (pkg/ristretto/ristretto.go lines 6-10, README "Ristretto").
Generated by tools/gen_prime.py.
-/

namespace Verif

/-- Order of the ristretto group, pkg/ristretto/ristretto.go:8. -/
def q : ℕ := 2 ^ 252 + 27742317777372353535851937790883648493

/-- Modulus of the base field of edwards25519 (`filippo.io/edwards25519/field`). -/
def p : ℕ := 2 ^ 255 - 19

namespace Pratt

'''
names={}
for n,(a,fs) in out.items():
    nm='prime_%d'%n; names[n]=nm
    s+='theorem %s : Nat.Prime %d := by\n  refine prime_of_check _ %d %s ?_ (by decide +kernel)\n'%(nm,n,a,fs)
    s+='  intro f hf\n  simp only [List.mem_cons, List.not_mem_nil, or_false] at hf\n'
    pats=' | '.join(['rfl']*len(fs))
    s+='  rcases hf with %s\n'%pats
    for f in fs:
        s+='  · %s\n'%('exact '+names[f] if f in names else 'norm_num')
    s+='\n'
s+='''end Pratt

theorem q_prime : Nat.Prime q := by
  have h : q = %d := by norm_num [q]
  rw [h]; exact Pratt.%s

theorem p_prime : Nat.Prime p := by
  have h : p = %d := by norm_num [p]
  rw [h]; exact Pratt.%s

instance : Fact (Nat.Prime q) := ⟨q_prime⟩
instance : Fact (Nat.Prime p) := ⟨p_prime⟩

end Verif
'''%(q,names[q],p,names[p])
open('/verif/lean/Verif/Lemmas/Primes.lean','w').write(s)
