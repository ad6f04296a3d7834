"""Generate lean/Verif/Model/HaloReads.lean: for each class of /repo that caches quantities, which
attributes of `self` each property/method/cached quantity of the class reads (Python ast, /repo is only read)."""
import ast, sys
R='/repo/src/halomod/'
files={f:ast.parse(open(R+f).read()) for f in ('halo_model.py','integrate_corr.py')}
def cls(f,n): return next(c for c in files[f].body if isinstance(c,ast.ClassDef) and c.name==n)
chain=[('halo_model.py','DMHaloModel'),('halo_model.py','TracerHaloModel'),('integrate_corr.py','ProjectedCF'),('integrate_corr.py','AngularCF')]
# functions taking the whole object: inlined reads
tools=ast.parse(open(R+'tools.py').read())
nodes={}   # name -> (kind, reads set, loc)
initwrites={}
def selfreads(fn, var='self'):
    out=[];w=[]
    for n in ast.walk(fn):
        if isinstance(n,ast.Attribute) and isinstance(n.value,ast.Name) and n.value.id==var:
            (out if isinstance(n.ctx,ast.Load) else w).append(n.attr)
        if isinstance(n,ast.Call):
            for a in n.args:
                if isinstance(a,ast.Name) and a.id==var: out.append(('PASS',ast.unparse(n.func)))
    return out,w
for f,c in chain:
    for fn in cls(f,c).body:
        if not isinstance(fn,ast.FunctionDef): continue
        decs=[ast.unparse(d) for d in fn.decorator_list]
        rd,wr=selfreads(fn)
        loc=f'{f}:{fn.lineno}-{fn.end_lineno}'
        if fn.name=='__init__':
            for w in wr: initwrites.setdefault(w,f'{f} {c}.__init__')
            continue
        if any(d.startswith('parameter') for d in decs): kind='param'
        elif 'cached_quantity' in decs: kind='cached'
        elif 'property' in decs: kind='plain'
        else: kind='method'
        if wr: print('WRITES',c,fn.name,wr)
        if any(d in('classmethod','staticmethod') for d in decs): continue
        if fn.name in nodes and nodes[fn.name][0]=='param' and kind=='param': pass
        nodes[fn.name]=(kind,rd,loc,c)

attrs=[w for w in initwrites if w not in nodes]
for n in ('update','validate','_find_m_min'): nodes.pop(n)
# tools.norm_warn(self): reads of the helper itself (tools.py)
nw=next(f for f in tools.body if isinstance(f,ast.FunctionDef) and f.name=='norm_warn')
nwreads=[r for r in selfreads(nw)[0] if isinstance(r,str)]
def flat(k,seen=()):
    kind,rd,loc,c=nodes[k]
    out=set()
    for r in rd:
        if isinstance(r,tuple):
            assert r[1]=='tools.norm_warn',(k,r); out|=set(nwreads)
        elif r in nodes and nodes[r][0]=='method':
            assert r not in seen; out|=flat(r,seen+(r,))
        else: out.add(r)
    return out
table={}
for k,(kind,rd,loc,c) in nodes.items():
    if kind=='method' and k.startswith('_'): continue
    if kind=='param': table[k]=('param',[],loc,c)
    else: table[k]=('cached' if kind=='cached' else 'plain',sorted(flat(k)),loc,c)
for a in attrs: table[a]=('attr',[],initwrites[a],'')
ext=sorted({r for v in table.values() for r in v[1] if r not in table})
for e in ext: table[e]=('cached',['hmfInputs'],'hmf','')
table['hmfInputs']=('param',[],'hmf','')
def rank(k,st=()):
    assert k not in st,(k,st)
    return 1+max([rank(r,st+(k,)) for r in table[k][1]],default=-1)
o=[]
o.append("""/-!
# What the cached quantities of the halo-model classes read

GENERATED by /verif/scripts/gen_reads.py from the sources in /repo (do not edit): the nodes are the attributes of
`DMHaloModel`, `TracerHaloModel` (halo_model.py), `ProjectedCF` and `AngularCF` (integrate_corr.py); for each
property, cached quantity and public method the list holds every attribute of `self` its source text mentions
(private methods and `tools.norm_warn` inlined).  Simplifications: attributes inherited from `hmf` are cached quantities
that read one parameter `hmfInputs`, standing for all parameters of `hmf`; `update`, `validate` and the
density matching are modelled elsewhere (Model/HaloState.lean, Model/Components.lean).
-/
namespace Halomod.Framework

/-- How an attribute is declared: a plain attribute written in `__init__`, a `@parameter`, a
`@cached_quantity`, or an uncached property or method. -/
inductive Kind | attr | param | cached | plain
  deriving DecidableEq, Repr

/-- The attributes; see the head of this file. -/
inductive Node""")
names=sorted(table)
for i in range(0,len(names),6): o.append('  | '+' | '.join(names[i:i+6]))
o.append("  deriving DecidableEq, Repr\n")
o.append("/-- How each attribute is declared in halo_model.py and integrate_corr.py (line ranges in `reads`). -/\ndef Node.kind : Node → Kind")
for kd in ('attr','param','plain'):
    ks=[n for n in names if table[n][0]==kd]
    for i in range(0,len(ks),5): o.append('  '+' '.join('| .'+n for n in ks[i:i+5])+f' => .{kd}')
o.append("  | _ => .cached\n")
o.append("/-- The attributes each one's source mentions: halo_model.py and integrate_corr.py, lines given per row. -/\ndef Node.reads : Node → List Node")
for n in names:
    kd,rd,loc,c=table[n]
    if rd and loc!='hmf':
        o.append(f'  -- {c}, {loc}')
        line=f'  | .{n} => ['
        cur=line
        for j,r in enumerate(rd):
            t='.'+r+(', ' if j<len(rd)-1 else ']')
            if len(cur)+len(t)>105: o.append(cur.rstrip()); cur='      '
            cur+=t
        o.append(cur)
ex=[n for n in names if table[n][2]=='hmf' and n!='hmfInputs']
o.append('  -- inherited from hmf')
for i in range(0,len(ex),6): o.append('  '+' '.join('| .'+n for n in ex[i:i+6])+' => [.hmfInputs]')
o.append("  | _ => []\n")
o.append("/-- Height of each attribute in the graph of reads (longest chain below it). -/\ndef Node.rank : Node → ℕ".replace('ℕ','Nat'))
rk={n:rank(n) for n in names}
for h in sorted(set(rk.values())):
    if h==0: continue
    ks=[n for n in names if rk[n]==h]
    for i in range(0,len(ks),5): o.append('  '+' '.join('| .'+n for n in ks[i:i+5])+f' => {h}')
o.append("  | _ => 0\n\nend Halomod.Framework")
open('/verif/lean/Verif/Model/HaloReads.lean','w').write('\n'.join(o)+'\n')
def clos(k,acc):
    for r in table[k][1]:
        if r not in acc: acc.add(r); clos(r,acc)
    return acc
for a in attrs: print(a,sorted(n for n in names if a in clos(n,set())))
print(len(names),max(rk.values()))
