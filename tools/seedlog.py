#!/usr/bin/env python3
"""seedlog.py edits.json results.jsonl [tightened.json] [maxclaim]: append to seeded/LOG.jsonl"""
import json,sys,os,re
E={e['id']:e for e in json.load(open(sys.argv[1]))}
T=json.load(open(sys.argv[3])) if len(sys.argv)>3 and sys.argv[3] else {}

# SNAP: the sources the edits were applied to; manifest theorems added later are not counted as failed
N=None
if os.environ.get('SNAP'):
    N={m.group(1).split('.')[-1] for d,_,fs in os.walk(os.environ['SNAP']) for f in fs for m in re.finditer(r'^theorem (\S+)',open(os.path.join(d,f)).read(),re.M)}
L=os.path.join(os.path.dirname(__file__),'..','seeded','LOG.jsonl')
old=set()
if os.path.exists(L):
    for l in open(L): old.add(json.loads(l)['id'])
with open(L,'a') as f:
    for l in open(sys.argv[2]):
        o=json.loads(l); i=o['edit'] if isinstance(o['edit'],str) else o['edit']['id']; e=E[i]
        if i in old or o.get('error'): continue
        br=[t for t in o['broken_claims'] if N is None or t.split('.')[-1] in N]
        f.write(json.dumps({'id':i,'file':'lean/Verif/'+e['file'],'definition':e['definition'],'edit':{'old':e['old'],'new':e['new']},
          'claim_broken':e['claim'],'proofs_failed':o['directly_failed'],'theorems_failed':br,'theorems_tightened':T.get(i,[])})+'\n')
