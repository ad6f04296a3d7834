#!/usr/bin/env python3
"""Collect mutation results (r_*.jsonl in /tmp/mut) into seeded/LOG.jsonl."""
import json,sys,os
D='/tmp/mut/'
T=json.load(open('/tmp/mut/tight.json'))
out=[]
n=0
for f in ['hod','b','t','p','h','n']+sys.argv[1:]:
    p=D+f'r_{f}.jsonl'
    if not os.path.exists(p): continue
    for l in open(p):
        r=json.loads(l)
        if 'error' in r: continue
        failed=r['failed']; via=r['failed_via_lemma']
        surv=r['rc']==0
        key=r['def']+' | '+r['edit']
        t=T.get(key) if surv else None
        out.append(dict(definition=r['def'],file='lean/Verif/'+r['file'],edit=f"{r['edit']}: `{r['old']}` -> `{r['new']}`",claim=r['claim'],
            theorems_failed=failed,theorems_failed_via_lemma=via,other_declarations_failed=r['helpers'],
            survived=surv,theorems_tightened=(t or []) if not isinstance(t,str) else [],note=(t if isinstance(t,str) else ('survived; tightened afterwards, re-run below or in a later line' if surv and t else ''))))
        if not surv and key.startswith("Clone.valid"): out[-1]["theorems_tightened"]=["C50_valid"]
        if not surv and key=="CNode.kind | cross_hod uncached": out[-1]["theorems_tightened"]=["C57_cross_built_once"]
        if surv and t is None: print('UNEXPLAINED',f,key)
        if not surv and not failed and not via: print('NO C',f,key,r['helpers'][:4],r['modfail'][:1])
os.makedirs('/verif/seeded',exist_ok=True)
open('/verif/seeded/LOG.jsonl','w').write('\n'.join(json.dumps(o,ensure_ascii=False) for o in out)+'\n')
print(len(out))
import re
s=open('/verif/seeded/LOG.jsonl').read()
s=s.replace('C56_tracer_default','C56_tracer_zheng05').replace('C54_tracer"','C54_tracer_partial"').replace('C54_matter"','C54_matter_partial"')
open('/verif/seeded/LOG.jsonl','w').write(s)
