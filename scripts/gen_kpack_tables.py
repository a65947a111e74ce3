import re
src=open('/repo/src/kpack.cpp').read()
def lines_of(m):
    return src[:m.start()].count('\n')+1, src[:m.end()].count('\n')+1
out=[]
out.append("/-! Generated from /repo/src/kpack.cpp by a script: the literal tables of `kpack_data<T>`. Do not edit. -/\n")
out.append("namespace Obake.KpackTables\n")
for T,nm in [('int32_t','i32'),('uint32_t','u32'),('int64_t','i64'),('uint64_t','u64')]:
    for fld in ['deltas','lims','klims']:
        m=re.search(r'const ::std::%s kpack_data<::std::%s>::%s\[(\d+)\]\s*=\s*\{([^}]*)\};'%(T,T,fld),src)
        nums=[int(x) for x in re.findall(r'(\d+)u?ll',m.group(2))]
        assert len(nums)==int(m.group(1))
        a,b=lines_of(m)
        out.append("/-- src/kpack.cpp:%d-%d `kpack_data<%s>::%s[%d]`. -/\ndef %s_%s : List Int :=\n  [%s]\n"%(a,b,T,fld,len(nums),nm,fld,", ".join(map(str,nums))))
    m=re.search(r'const ::std::tuple<std::\w+, unsigned, unsigned> kpack_data<::std::%s>::divcnst\[(\d+)\]\[(\d+)\]\s*=\s*(\{.*?\});'%T,src,re.S)
    R,C=int(m.group(1)),int(m.group(2))
    body=m.group(3)
    trip=re.findall(r'\{(\d+)ull, (\d+)u, (\d+)u\}',body)
    assert len(trip)==R*C,(len(trip),R,C)
    a,b=lines_of(m)
    rows=[]
    for r in range(R):
        rows.append("    ["+", ".join("(%s, %s, %s)"%t for t in trip[r*C:(r+1)*C])+"]")
    out.append("/-- src/kpack.cpp:%d-%d `kpack_data<%s>::divcnst[%d][%d]`. -/\ndef %s_divcnst : List (List (Nat × Nat × Nat)) :=\n  [\n%s ]\n"%(a,b,T,R,C,nm,",\n".join(rows)))
out.append("end Obake.KpackTables\n")
import os
os.makedirs('/verif/lean/Verif/Model',exist_ok=True)
open('/verif/lean/Verif/Model/KpackTables.lean','w').write("\n".join(out))
