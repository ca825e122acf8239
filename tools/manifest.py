#!/usr/bin/env python3
"""Regenerate MANIFEST.json from the theorem names cNN_* in lean/Verif/Props and tools/notes.json."""
import json,re,glob,os
root=os.path.dirname(os.path.dirname(os.path.abspath(__file__)))
props=[json.loads(l)['id'] for l in open(root+'/properties.jsonl') if l.strip()]
notes=json.load(open(root+'/tools/notes.json'))
th={p:[] for p in props}
for f in sorted(glob.glob(root+'/lean/Verif/Props/*.lean')):
    for l in open(f):
        m=re.match(r'(?:noncomputable )?theorem (c(\d\d)_\w+\'*)',l)
        if m: th['C'+m.group(2)].append('Verif.Props.'+m.group(1))
claims=[]
for p in props:
    if not th[p]: 
        print('no theorems yet:',p); continue
    n=notes.get(p,{})
    st=n.get('status') or ('partial' if any(t.endswith('_partial') for t in th[p]) else 'proved')
    claims.append({'property':p,'status':st,'theorems':th[p],'note':n.get('note','')})
json.dump({'claims':claims},open(root+'/MANIFEST.json','w'),indent=1,ensure_ascii=False)
