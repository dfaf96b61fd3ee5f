#!/bin/bash
# Prints, for every property theorem (PyZeal.Props.C*), the axioms it depends on; updates section 5 of DESIGN.md.
cat > /tmp/verif_axioms.lean <<'L'
import Verif
import Lean
open Lean
run_meta do
  let env ← getEnv
  let mut out : Array String := #[]
  for (n, ci) in env.constants.map₁.toList do
    if (`PyZeal.Props).isPrefixOf n && ci.isTheorem && !n.isInternal && n.getString!.startsWith "C" then
      let ax ← Lean.collectAxioms n
      let k := String.intercalate ", " ((ax.qsort (fun a b => a.toString < b.toString)).toList.map toString)
      out := out.push s!"{k}|{n.getString!}"
  for l in out.qsort (· < ·) do IO.println l
L
cd "$(dirname "$0")/../lean" && lake env lean /tmp/verif_axioms.lean > /tmp/verif_axioms.txt
python3 - <<'P'
d={}
for l in open('/tmp/verif_axioms.txt'):
    k,n=l.rstrip('\n').split('|'); d.setdefault(k,[]).append(n)
out='## 5. Axioms of each property theorem\n\nGenerated by `tools/axioms.sh` (Lean\'s `collectAxioms`). No theorem depends on any other axiom.\n'
for k in sorted(d,key=lambda x:(x.count(','),x)):
    out+=f'\n**{k or "no axioms"}** ({len(d[k])} theorems): '+', '.join(sorted(d[k]))+'\n'
s=open('../DESIGN.md').read()
i=s.find('## 5. Axioms of each')
s=(s if i<0 else s[:i]).rstrip()+'\n\n'+out
open('../DESIGN.md','w').write(s)
P
