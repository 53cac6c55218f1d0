import json,re,glob,sys
# name -> property by prefix Cxx_
thms={}
for f in glob.glob('/verif/lean/Verif/**/*.lean',recursive=True):
    src=open(f).read()
    ns=[]
    for line in src.split('\n'):
        m=re.match(r'namespace (\S+)',line)
        if m: ns.append(m.group(1))
        m=re.match(r'end (\S+)',line)
        if m and ns and ns[-1]==m.group(1): ns.pop()
        m=re.match(r'(?:@\[[^\]]*\] )?theorem (C(\d\d)_\w+)',line)
        if m:
            thms.setdefault('C'+m.group(2),[]).append('.'.join(ns+[m.group(1)]))
notes=json.load(open('/verif/tools/notes.json')) if len(sys.argv)<2 else {}
claims=[]
for l in open('/verif/properties.jsonl'):
    d=json.loads(l); i=d['id']
    n=notes.get(i,{})
    if i in thms:
        claims.append({"property":i,"status":n.get('status','proved'),"theorems":thms[i],"note":n.get('note','')})
    elif n.get('status')=='not_applicable':
        claims.append({"property":i,"status":"not_applicable","theorems":[],"note":n['note']})
json.dump({"claims":claims},open('/verif/MANIFEST.json','w'),indent=1)
print([(c['property'],c['status'],len(c['theorems'])) for c in claims])
