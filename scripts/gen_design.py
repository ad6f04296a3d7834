#!/usr/bin/env python3
"""Assembles DESIGN.md from scripts/design_head.md, the per-property table below and scripts/design_tail.md."""
import json,os
R=os.path.dirname(os.path.dirname(os.path.abspath(__file__)))
PLAN=json.load(open(R+'/scripts/design_plan.json'))
NOTES=json.load(open(R+'/scripts/manifest_notes.json'))
T={}
for l in open(R+'/properties.jsonl'):
    d=json.loads(l);T[d['id']]=d['title']
out=open(R+'/scripts/design_head.md').read()
out+='\n## Per property: what is modelled, how it is proved, what is missing\n\n'
for i in sorted(T):
    model,proof=PLAN[i]
    out+=f'* **{i} {T[i]}** ({NOTES[i][0]}). *Modelled:* {model} *Proof:* {proof}'
    if NOTES[i][1]: out+=f' *Scope/missing:* {NOTES[i][1]}'
    out+='\n'
out+='\n'+open(R+'/scripts/design_tail.md').read()
open(R+'/DESIGN.md','w').write(out)
