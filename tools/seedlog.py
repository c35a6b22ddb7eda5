#!/usr/bin/env python3
"""Append mutation results (harness output) to seeded/LOG.jsonl: usage seedlog.py out.jsonl [note-for-survivors.json]"""
import json,sys,re,os
root=os.path.dirname(os.path.dirname(os.path.abspath(__file__)))
notes=json.load(open(sys.argv[2])) if len(sys.argv)>2 else {}
L=open(root+'/seeded/LOG.jsonl','a')
for line in open(sys.argv[1]):
    m=json.loads(line)
    s=open(f"{root}/lean/Verif/{m['file']}").read()
    i=s.find(m['old']); d=None
    for x in re.finditer(r'^\s*(?:noncomputable )?(?:def|structure|instance|abbrev|inductive)\s+([^\s:({\[]+)',s[:max(i,0)+1] ,re.M): d=x.group(1)
    L.write(json.dumps(dict(definition=f"{m['file']}: {d}",edit=m['edit'],before=m['old'],after=m['new'],claim=m['claim'],
      verdict='killed' if m['killed'] else 'survived',failed=m['failed'],tightened=notes.get(m['edit'],{}).get('tightened',[]),
      note=notes.get(m['edit'],{}).get('note','')),ensure_ascii=False)+'\n')
